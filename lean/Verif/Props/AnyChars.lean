import Verif.Proofs.CalmAny
import Verif.Proofs.CoreScreen
import Verif.Props.CalmCheck

/-! # C95: safe sessions with texts of any characters -/

namespace Ced.Props
open Spec PieceTable

theorem any_calm {seg : Segmentation} (hseg : IsSegmentation seg) {w : World} (h : AnyCharsHistory seg w) :
    World.Calm (anyKind seg hseg) w := by
  induction h with
  | @start env cwd args cwdText w hs h =>
    obtain ⟨w', e, d⟩ := start_total (K := anyKind seg hseg) (env := env) (cwd := cwd) (args := args) (cwdText := cwdText) hs trivial trivial
    rw [h] at e
    cases e
    exact calm_start d h
  | @step env w w' op _ hs he hf h ih =>
    subst he
    obtain ⟨w', e, k⟩ := calm_step (K := anyKind env.seg hseg) rfl hf ih (safeAny_in hseg hf hs)
    rw [h] at e
    cases e
    exact k

theorem still_calm {w : World} (h : StillHistory w) : World.Calm stillKind w := by
  induction h with
  | @start env cwd args cwdText w hs h =>
    obtain ⟨w', e, d⟩ := start_total (K := stillKind) (env := env) (cwd := cwd) (args := args) (cwdText := cwdText) hs trivial trivial
    rw [h] at e
    cases e
    exact calm_start d h
  | step _ hs hseg hf h ih =>
    obtain ⟨w', e, k⟩ := calm_step (K := stillKind) hseg hf ih (safeStill_in ih hs)
    rw [h] at e
    cases e
    exact k

/-- C95: the editor starts, whatever the characters of its command line and of its working directory. -/
theorem C95_start {env : Env} (hseg : IsSegmentation env.seg) (cwd : Path) (args cwdText : Str) :
    ∃ w, World.start env cwd args cwdText = .ok w ∧ AnyCharsHistory env.seg w ∧ StillHistory w := by
  obtain ⟨w, e, _⟩ := start_total (K := stillKind) (env := env) (cwd := cwd) (args := args) (cwdText := cwdText) hseg trivial trivial
  exact ⟨w, e, .start rfl e, .start hseg e⟩

/-- C95: in every state reached by safe requests, every safe request completes, whatever the characters of the texts. -/
theorem C95_step {seg : Segmentation} (hseg : IsSegmentation seg) {w : World} (h : AnyCharsHistory seg w) {env : Env}
    (he : env.seg = seg) (hf : ∀ i, (env.stale i).follows = true) {op : CoreOp} (hs : SafeAny env w op) :
    ∃ w', op.run env w = .ok w' ∧ AnyCharsHistory seg w' := by
  subst he
  obtain ⟨w', e, _⟩ := calm_run (K := anyKind env.seg hseg) rfl hf (any_calm hseg h) (safeAny_in hseg hf hs)
  exact ⟨w', e, .step h hs rfl hf e⟩

/-- C95: as long as no cursor has been moved and nothing deleted, opening, re-reading, viewing, closing, appending and telling
complete, whatever the characters of the texts. -/
theorem C95_still {w : World} (h : StillHistory w) {env : Env} (hseg : IsSegmentation env.seg)
    (hf : ∀ i, (env.stale i).follows = true) {op : CoreOp} (hs : SafeStill env w op) :
    ∃ w', op.run env w = .ok w' ∧ StillHistory w' := by
  obtain ⟨w', e, _⟩ := calm_run (K := stillKind) hseg hf (still_calm h) (safeStill_in (still_calm h) hs)
  exact ⟨w', e, .step h hs hseg hf e⟩

/-- what holds in every state of a safe session of either kind: each text ends with a newline, and each client can be shown its view -/
theorem calm_shown {K : Kind} {w : World} (k : World.Calm K w) {env : Env} (hg : K.seg env.seg) (hseg : IsSegmentation env.seg)
    (hh : CoreHistory (fun _ _ => True) w) :
    (∀ n b, w.buffers.get n = some b → EndsWithNewline b.content.content) ∧
    ∀ c, w.clients.map.has c = true → CanBeShown env.seg w c := by
  refine ⟨fun n b hb => (k.drawn.good n b hb).ends, fun c hc => ?_⟩
  obtain ⟨ctx, hctx⟩ := Assoc.has_iff.1 hc
  have hbs : ∀ n ∈ ctx.view.buffers, w.buffers.has n = true := World.live_has k.inv (.inr ⟨c, ctx, hctx, rfl⟩)
  obtain ⟨p, hp⟩ := World.params_total hg k.drawn k.whole hctx hbs
  have := (C88_told hh hseg [c]).1 (by
    refine ⟨w.viewUpdate [p], ?_⟩
    unfold World.notifyViewUpdate
    rw [List.mapM_cons, hp]
    rfl)
  exact this c (by simp)

theorem any_history {seg : Segmentation} {w : World} (h : AnyCharsHistory seg w) : CoreHistory (fun _ _ => True) w := by
  induction h with
  | start _ h => exact .start h
  | step _ _ _ hf h ih => exact .step ih trivial hf h

theorem still_history {w : World} (h : StillHistory w) : CoreHistory (fun _ _ => True) w := by
  induction h with
  | start _ h => exact .start h
  | step _ _ _ hf h ih => exact .step ih trivial hf h

/-- C95: in every such state each text ends with a newline, and each client can be shown its view. -/
theorem C95_shown {seg : Segmentation} (hseg : IsSegmentation seg) {w : World} (h : AnyCharsHistory seg w) :
    (∀ n b, w.buffers.get n = some b → ∃ s, Shows b.content s ∧ EndsWithNewline s) ∧
    ∀ c, w.clients.map.has c = true → CanBeShown seg w c := by
  let env : Env := { seg := seg, stale := fun _ => ⟨true, 0⟩, fs := fun _ => none, now := 0, resolve := fun _ _ => [] }
  obtain ⟨h1, h2⟩ := calm_shown (any_calm hseg h) (env := env) rfl hseg (any_history h)
  refine ⟨fun n b hb => ⟨_, shows_content (reachable_ready (forward_any (World.texts_history (any_history h) n b hb))).wf, h1 n b hb⟩, h2⟩

/-! ## Where a selection can be drawn -/

/-- C95: inside the lines after the first a selection can end anywhere but on the newline. -/
theorem C95_inside {seg : Segmentation} {s pre line suf : Bytes} {n b : Nat} (hl : LineAt s n pre line suf) (hn : n ≠ 1)
    (h1 : pre.length ≤ b) (h2 : b < pre.length + line.length) : Drawable seg s b :=
  ⟨n, pre, line, suf, hl, h1, by omega, .inl ⟨hn, h2⟩⟩

/-- C95: on a line whose characters all take one byte a selection can end anywhere. -/
theorem C95_single {seg : Segmentation} {s pre line suf : Bytes} {n b : Nat} (hl : LineAt s n pre line suf)
    (hs : (seg line).length = line.length) (h1 : pre.length ≤ b) (h2 : b ≤ pre.length + line.length) : Drawable seg s b := by
  refine ⟨n, pre, line, suf, hl, h1, h2, .inr ?_⟩
  rcases Nat.lt_or_ge (b - pre.length) (seg line).length with h | h
  · exact .inl h
  · exact .inr ⟨by omega, .inr (by omega)⟩

/-- C95: in an ASCII text a selection can end anywhere. -/
theorem C95_ascii {seg : Segmentation} (hseg : IsSegmentation seg) {s : Bytes} (ha : Ascii s) {b : Nat} (hb : b < s.length) :
    Drawable seg s b := by
  obtain ⟨n, pre, line, suf, hl, h1, h2, _⟩ := exists_lineAt hb
  refine C95_single hl ?_ h1 h2
  rw [hseg.ascii line (fun x hx => ha x (by rw [hl.split]; simp [hx])) (.inl hl.noNewline)]
  simp

/-- C95: a line can be selected up to its first character. -/
theorem C95_line_start {seg : Segmentation} (hseg : IsSegmentation seg) {s pre line suf : Bytes} {n : Nat}
    (hl : LineAt s n pre line suf) : Drawable seg s pre.length := by
  refine ⟨n, pre, line, suf, hl, Nat.le_refl _, by omega, .inr ?_⟩
  rw [Nat.sub_self]
  rcases Nat.eq_zero_or_pos (seg line).length with h | h
  · refine .inr ⟨h.symm, .inr ?_⟩
    have hf := hseg.flatten line
    rw [List.length_eq_zero_iff.1 h] at hf
    rw [← hf]
    simp
  · exact .inl h

/-- C95: a motion headed for a line after the first, and for a column it has, goes where a selection can be drawn. -/
theorem C95_lands {seg : Segmentation} (hseg : IsSegmentation seg) {s pre line suf : Bytes} {n w o : Nat}
    (hl : LineAt s n pre line suf) (hn : n ≠ 1) (hw : w ≤ (seg line).length) (h : LandsOn seg s n w o) : Drawable seg s o := by
  obtain ⟨pre', line', suf', hl', h1, rfl⟩ := h
  obtain ⟨rfl, rfl, rfl⟩ := hl'.unique hl
  refine C95_inside hl hn (by omega) ?_
  have := flatten_take_lt (fun g hg => hseg.nonempty line g hg) (show min w ((seg line).length + 1) - 1 < (seg line).length by omega)
  rw [hseg.flatten] at this
  omega

/-- C95: a cursor that is where a selection can be drawn can move to the start of the text and to the start of its line. -/
theorem C95_starts {seg : Segmentation} (hseg : IsSegmentation seg) {s : Bytes} (he : EndsWithNewline s) {o : Nat}
    (h : Drawable seg s o) (tc : Nat) :
    (∃ n w, Headed seg s o tc .begin n w ∧ LandsOn seg s n w 0) ∧
    ∃ n pre line suf w, LineAt s n pre line suf ∧ pre.length ≤ o ∧ o ≤ pre.length + line.length ∧
      Headed seg s o tc .lineBegin n w ∧ LandsOn seg s n w pre.length := by
  obtain ⟨n, pre, line, suf, hl, h1, h2, h3⟩ := h
  have hread : ∃ c, ReadAs seg s o n c ∧ c ≤ (seg line).length + 1 := by
    obtain ⟨y, rfl⟩ := ends_suf he hl
    rcases Nat.lt_or_ge o (pre.length + line.length) with h4 | h4
    · by_cases hn : n = 1
      · have hp := hl.pre_eq_nil.2 hn
        subst hp
        simp only [List.length_nil, Nat.zero_add, Nat.sub_zero] at *
        exact ⟨o + 1, ⟨_, _, _, hl, .inr (.inl ⟨hn, h4, rfl⟩)⟩, by omega⟩
      · have hk : o - pre.length < (seg line).flatten.length := by rw [hseg.flatten]; omega
        obtain ⟨before, g, after, j, e, hj, hk⟩ := in_cluster hk
        refine ⟨before.length + 1, ⟨pre, line, _, hl, .inr (.inr ⟨hn, before, g, after, j, e, hj, by omega, rfl⟩)⟩, ?_⟩
        rw [e]
        simp
    · exact ⟨line.length + 1, ⟨_, _, _, hl, .inl ⟨by simp, by omega, rfl⟩⟩, by omega⟩
  obtain ⟨c, hr, hc⟩ := hread
  have hcl : ClusterAt seg s _ n c := ⟨pre, line, suf, hl, (readAs_lt hseg hr).2, hc, rfl⟩
  constructor
  · have hp := List.length_pos_iff.2 (ends_ne he)
    obtain ⟨n', pre', line', suf', hl', h5, _⟩ := exists_lineAt hp
    have hpre : pre' = [] := List.length_eq_zero_iff.1 (by omega)
    have hn' := hl'.pre_eq_nil.1 hpre
    subst hpre hn'
    exact ⟨1, 1, ⟨n, c, _, hr, hcl, .begin⟩, _, _, _, hl', Nat.le_refl 1, by simp⟩
  · exact ⟨n, pre, line, suf, 1, hl, h1, h2, ⟨n, c, _, hr, hcl, .lineBegin⟩, _, _, _, hl, Nat.le_refl 1, by simp⟩

/-- C95: moving the cursors to the start of the text or of their lines is safe for a client whose cursors are where a selection
can be drawn. -/
theorem C95_home {seg : Segmentation} (hseg : IsSegmentation seg) {w : World} (h : AnyCharsHistory seg w) {env : Env}
    (he : env.seg = seg) {c : Nat} {ctx : ClientContext} (hc : w.clients.map.get c = some ctx) (hl : NoLeftover ctx ctx.view)
    (hcur : ∀ m n ss sel b s, ctx.selections.get ctx.view.key = some m → m.get n = some ss → sel ∈ ss →
      w.buffers.get n = some b → Shows b.content s → Drawable seg s sel.cursor) {d : CursorTarget} (hd : d = .begin ∨ d = .lineBegin) :
    SafeAny env w (.move c d false) := by
  subst he
  refine ⟨ctx, hc, hl, fun m n ss sel b s hm hg hs hb hsh => .inr ?_⟩
  have hends : EndsWithNewline s := by
    obtain ⟨s', h1, h2⟩ := (C95_shown hseg h).1 n b hb
    rw [PieceTable.shows_unique h1 hsh] at h2
    exact h2
  obtain ⟨⟨n1, w1, g1, g2⟩, n2, pre, line, suf, w2, g3, _, _, g4, g5⟩ :=
    C95_starts hseg hends (hcur m n ss sel b s hm hg hs hb hsh) sel.targetCol
  rcases hd with rfl | rfl
  · exact ⟨n1, w1, 0, g1, g2, drawable_zero hseg hends⟩
  · refine ⟨n2, w2, _, g4, g5, ?_⟩
    rw [if_neg (by simp), Nat.max_self]
    exact C95_line_start hseg g3

/-! ## Appending to a text -/

/-- C95: in a text that grows, a selection that could be drawn still can, unless its last end is the final newline and the last
line has a character of more than one byte. -/
theorem C95_grown {seg : Segmentation} (hseg : IsSegmentation seg) {s x : Bytes} (he : EndsWithNewline s) (hx : EndsWithNewline x)
    {a b : Nat} (hab : a ≤ b) (hb : b < s.length) (h : CanShow seg s a b) :
    CanShow seg (s ++ x) a b ↔
      ∀ n pre line, LineAt s n pre line [NL] → b + 1 = s.length → (seg line).length = line.length := by
  have hsx : EndsWithNewline (s ++ x) := by
    unfold EndsWithNewline at *
    rw [List.getLast?_append, hx]; rfl
  have hxne := ends_ne hx
  have hlen := List.length_pos_iff.2 hxne
  have hle : ∀ line, (seg line).length ≤ line.length := fun line => by
    have := length_le_flatten fun g hg => hseg.nonempty line g hg
    rwa [hseg.flatten] at this
  constructor
  · intro hc n pre line hl hb1
    rw [C88_where hseg hsx hab (by rw [List.length_append]; omega)] at hc
    have hll := hl.length
    simp only [List.length_singleton] at hll
    have hl' := lineAt_append (x := x) he hl
    rcases hc with hc | ⟨n2, pre2, line2, suf2, hl2, q1, q2, q3⟩
    · rw [List.length_append] at hc; omega
    · have heq : n2 = n := (at_unique (s := s ++ x) (o := b)
          ⟨pre2, line2, suf2, hl2, Nat.succ_pos (b - pre2.length), by omega, by simp; omega⟩
          ⟨pre, line, [NL] ++ x, hl', Nat.succ_pos line.length, by omega, by omega⟩).1
      subst heq
      obtain ⟨rfl, rfl, _⟩ := hl2.unique hl'
      have := hle line
      rcases q3 with ⟨_, q3⟩ | q3 | ⟨q3, _⟩ <;> omega
  · intro hc
    rw [C88_where hseg he hab hb] at h
    refine canShow_of_drawable hseg hsx hab ?_
    rcases h with h | ⟨n, pre, line, suf, hl, q1, q2, q3⟩
    · obtain ⟨n, pre, line, suf, hl, q1, q2, _⟩ := exists_lineAt hb
      obtain ⟨y, rfl⟩ := ends_suf he hl
      have hll := hl.length
      simp only [List.length_cons] at hll
      have hy : y = [] := List.length_eq_zero_iff.1 (by omega)
      subst hy
      exact C95_single (lineAt_append he hl) (hc n pre line hl h) q1 q2
    · refine ⟨n, pre, line, suf ++ x, lineAt_append he hl, q1, q2, ?_⟩
      rcases q3 with q3 | q3 | ⟨q3, q4⟩
      · exact .inl q3
      · exact .inr (.inl q3)
      · refine .inr (.inr ⟨q3, .inl ?_⟩)
        obtain ⟨y, rfl⟩ := ends_suf he hl
        intro e
        have := congrArg List.length e
        simp at this
        exact hxne this.2

/-- C95: appending lines to a text completes exactly when no client that sees the text has a selection whose last end is the
final newline behind a last line with a character of more than one byte - provided each of these clients could be shown its view
before, with its selections inside the text; otherwise the editor crashes. -/
theorem C95_append {w : World} (h : CoreHistory CleanName w) {env : Env} (hseg : IsSegmentation env.seg) {name : Str}
    {b : Buffer} (hb : w.buffers.get name = some b) {s x : Bytes} (hs : Shows b.content s) (he : EndsWithNewline s)
    (hx : EndsWithNewline x)
    (hin : ∀ c ctx, w.clients.map.get c = some ctx → name ∈ ctx.view.buffers → CanBeShown env.seg w c ∧
      ∀ m l sel, ctx.selections.get ctx.view.key = some m → m.get name = some l → sel ∈ l →
        sel.anchor < s.length ∧ sel.cursor < s.length) :
    (∃ w', w.appendTo env name x = .ok w') ↔
      ∀ c ctx m l sel, w.clients.map.get c = some ctx → name ∈ ctx.view.buffers → ctx.selections.get ctx.view.key = some m →
        m.get name = some l → sel ∈ l → max sel.anchor sel.cursor + 1 = s.length →
        ∀ n pre line, LineAt s n pre line [NL] → (env.seg line).length = line.length := by
  have hxne := ends_ne hx
  have hfw := World.texts_history h name b hb
  have hcs := (shows_iff (reachable_ready (forward_any hfw)).wf).1 hs
  have hcx : (b.append x).content.content = s ++ x := by
    rw [← hcs]; exact append_content hfw hxne
  have ht : ∀ n b', (w.buffers.set name (b.append x)).get n = some b' → ForwardHistory b'.content := by
    intro n b' hb'
    rw [Assoc.get_set] at hb'
    split at hb'
    · cases hb'
      exact World.forward_append hfw hxne
    · exact World.texts_history h n b' hb'
  have one : ∀ c ctx, w.clients.map.get c = some ctx → name ∈ ctx.view.buffers →
      ((∃ p, World.viewParams env { w with buffers := w.buffers.set name (b.append x) } c = .ok p) ↔
        ∀ m l sel, ctx.selections.get ctx.view.key = some m → m.get name = some l → sel ∈ l →
          max sel.anchor sel.cursor + 1 = s.length →
          ∀ n pre line, LineAt s n pre line [NL] → (env.seg line).length = line.length) := by
    intro c ctx hc hn
    have hr := render_iff ht hseg (ctx.selections.get ctx.view.key) (v := ctx.view) ((World.views_history allWhole h).clients c ctx hc)
    have hp : (∃ p, World.viewParams env { w with buffers := w.buffers.set name (b.append x) } c = .ok p) ↔
        ∃ items, ctx.view.toNotificationParams env.seg (w.buffers.set name (b.append x)) (ctx.selections.get ctx.view.key) = .ok items := by
      constructor
      · rintro ⟨p, hp⟩
        obtain ⟨_, ctx', hc', hp⟩ := World.viewParams_inv hp
        have hc' : w.clients.map.get c = some ctx' := hc'
        rw [hc] at hc'; cases hc'
        exact ⟨_, hp⟩
      · rintro ⟨items, hi⟩
        refine ⟨(c, items), ?_⟩
        unfold World.viewParams
        simp only [Assoc.at_ok hc, except_bind_ok, hi]
        rfl
    rw [hp, hr]
    obtain ⟨⟨ctx', hc', hshow⟩, hinside⟩ := hin c ctx hc hn
    rw [hc] at hc'; cases hc'
    constructor
    · intro hall m l sel hm hl hsel hlast
      obtain ⟨b', hb', hcan⟩ := hall name hn
      rw [Assoc.get_set, if_pos rfl] at hb'
      cases hb'
      have h1 := hcan m l sel hm hl hsel
      obtain ⟨b2, s2, hb2, hs2, hcan2⟩ := hshow name hn
      rw [hb] at hb2; cases hb2
      rw [PieceTable.shows_unique hs2 hs] at hcan2
      have hi := hinside m l sel hm hl hsel
      rw [hcx] at h1
      intro n pre line hline
      exact (C95_grown hseg he hx (by omega) (by omega) (hcan2 m l sel hm hl hsel)).1 h1 n pre line hline hlast
    · intro hall n hn'
      obtain ⟨b2, s2, hb2, hs2, hcan2⟩ := hshow n hn'
      by_cases hne : n = name
      · subst hne
        rw [hb] at hb2; cases hb2
        rw [PieceTable.shows_unique hs2 hs] at hcan2
        refine ⟨b.append x, by rw [Assoc.get_set, if_pos rfl], fun m l sel hm hl hsel => ?_⟩
        have hi := hinside m l sel hm hl hsel
        rw [hcx]
        exact (C95_grown hseg he hx (by omega) (by omega) (hcan2 m l sel hm hl hsel)).2
          fun k pre line hline hlast => hall m l sel hm hl hsel hlast k pre line hline
      · refine ⟨b2, by rw [Assoc.get_set, if_neg hne]; exact hb2, ?_⟩
        rw [(shows_iff (reachable_ready (forward_any (World.texts_history h n b2 hb2))).wf).1 hs2]
        exact hcan2
  have hmem : ∀ c, c ∈ World.clientsWithBuffer { w with buffers := w.buffers.set name (b.append x) } name ↔
      ∃ ctx, w.clients.map.get c = some ctx ∧ name ∈ ctx.view.buffers := by
    intro c
    constructor
    · intro hc
      have := World.mem_clientsWith (w := { w with buffers := w.buffers.set name (b.append x) }) (World.inv_history (fun _ _ h => h) h).cnodup hc
      exact this
    · intro hc
      exact World.sees_mem (w := { w with buffers := w.buffers.set name (b.append x) }) (by rw [Assoc.has_set]; simp) hc
  unfold World.appendTo
  rw [hb]
  dsimp only
  constructor
  · rintro ⟨w', hw⟩ c ctx m l sel hc hn hm hl hsel
    obtain ⟨ps, hps, _⟩ := World.notify_ok hw
    exact (one c ctx hc hn).1 (mapM_inv hps c ((hmem c).2 ⟨ctx, hc, hn⟩)) m l sel hm hl hsel
  · intro hall
    obtain ⟨ps, hps⟩ := mapM_total (f := World.viewParams env { w with buffers := w.buffers.set name (b.append x) })
      (l := World.clientsWithBuffer { w with buffers := w.buffers.set name (b.append x) } name) (by
        intro c hc
        obtain ⟨ctx, hc, hn⟩ := (hmem c).1 hc
        exact (one c ctx hc hn).2 fun m l sel hm hl hsel => hall c ctx m l sel hc hn hm hl hsel)
    refine ⟨World.viewUpdate { w with buffers := w.buffers.set name (b.append x) } ps, ?_⟩
    unfold World.notifyViewUpdate
    rw [hps]
    rfl

/-- C95, violated: if a client sees a text and has a selection whose last end is its final newline, behind a last line with a
character of more than one byte, then every attempt to append lines to this text kills the editor. -/
theorem C95_append_refuted {w : World} (h : CoreHistory CleanName w) {env : Env} (hseg : IsSegmentation env.seg) {name : Str}
    {b : Buffer} (hb : w.buffers.get name = some b) {s x : Bytes} (hs : Shows b.content s) (he : EndsWithNewline s)
    (hx : EndsWithNewline x) {c : Nat} {ctx : ClientContext} (hc : w.clients.map.get c = some ctx) (hn : name ∈ ctx.view.buffers)
    {m : Assoc Str (List Selection)} (hm : ctx.selections.get ctx.view.key = some m) {l : List Selection} (hl : m.get name = some l)
    {sel : Selection} (hsel : sel ∈ l) (hlast : max sel.anchor sel.cursor + 1 = s.length) {n : Nat} {pre line : Bytes}
    (hline : LineAt s n pre line [NL]) (hmb : (env.seg line).length < line.length) :
    ∃ e, w.appendTo env name x = .error e := by
  cases hr : w.appendTo env name x with
  | error e => exact ⟨e, rfl⟩
  | ok w' =>
    exfalso
    have hxne := ends_ne hx
    have hfw := World.texts_history h name b hb
    have hcs := (shows_iff (reachable_ready (forward_any hfw)).wf).1 hs
    have hcx : (b.append x).content.content = s ++ x := by
      rw [← hcs]; exact append_content hfw hxne
    have ht : ∀ n b', (w.buffers.set name (b.append x)).get n = some b' → ForwardHistory b'.content := by
      intro n b' hb'
      rw [Assoc.get_set] at hb'
      split at hb'
      · cases hb'
        exact World.forward_append hfw hxne
      · exact World.texts_history h n b' hb'
    unfold World.appendTo at hr
    rw [hb] at hr
    dsimp only at hr
    obtain ⟨ps, hps, _⟩ := World.notify_ok hr
    obtain ⟨p, hp⟩ := mapM_inv hps c
      (World.sees_mem (w := { w with buffers := w.buffers.set name (b.append x) }) (by rw [Assoc.has_set]; simp) ⟨ctx, hc, hn⟩)
    obtain ⟨_, ctx', hc', hp⟩ := World.viewParams_inv hp
    have hc' : w.clients.map.get c = some ctx' := hc'
    rw [hc] at hc'; cases hc'
    obtain ⟨b', hb', hcan⟩ := (render_iff ht hseg _ ((World.views_history allWhole h).clients c ctx hc)).1 ⟨_, hp⟩ name hn
    rw [Assoc.get_set, if_pos rfl] at hb'
    cases hb'
    have h1 := hcan m l sel hm hl hsel
    rw [hcx] at h1
    have := (C95_grown hseg he hx (by omega) (by omega) (.inr ⟨by omega, .inl hlast⟩)).1 h1 n pre line hline hlast
    omega

/-! ## Sessions -/

/-- client 1 says `é`, opens the buffer of the messages and goes to its end -/
def runEnd : R World := do
  let w ← World.start envE [] [] []
  [CoreOp.join 1 [], .message (some 1) ['é'], .edit 1 BUFFER_MESSAGES true, .move 1 .end false].foldlM (fun w op => op.run envE w) w

def worldEnd : World := final runEnd

theorem worldEnd_ok : runEnd = .ok worldEnd := final_ok (by decide +kernel)

theorem worldEnd_history : CoreHistory CleanName worldEnd := by
  have h := worldEnd_ok
  unfold runEnd at h
  obtain ⟨w0, h0, h⟩ := bind_inv h
  refine foldlM_ind (P := CoreHistory CleanName) h (.start h0) ?_
  intro op hop a a' ha hs
  refine .step ha ?_ (fun _ => rfl) hs
  intro name hn
  simp only [List.mem_cons, List.not_mem_nil, or_false] at hop
  rcases hop with rfl | rfl | rfl | rfl <;> simp [CoreOp.creates] at hn
  rw [← hn]
  decide

theorem worldEnd_sees : ∃ ctx m, worldEnd.clients.map.get 1 = some ctx ∧ BUFFER_MESSAGES ∈ ctx.view.buffers ∧
    ctx.selections.get ctx.view.key = some m ∧ m.get BUFFER_MESSAGES = some [⟨4, 4, 5⟩] := by
  have h : (worldEnd.clients.map.get 1).map (fun ctx => (ctx.view.buffers, (ctx.selections.get ctx.view.key).bind fun m => m.get BUFFER_MESSAGES)) =
    some ([BUFFER_MESSAGES], some [⟨4, 4, 5⟩]) := by decide +kernel
  obtain ⟨ctx, hc, h⟩ := Option.map_eq_some_iff.1 h
  simp only [Prod.mk.injEq] at h
  obtain ⟨m, hm, h2⟩ := Option.bind_eq_some_iff.1 h.2
  exact ⟨ctx, m, hc, by rw [h.1]; simp, hm, h2⟩

theorem worldEnd_text : ∃ b, worldEnd.buffers.get BUFFER_MESSAGES = some b ∧ Shows b.content [49, 124, 195, 169, 10] := by
  have h : (worldEnd.buffers.get BUFFER_MESSAGES).map (fun b => b.content.content) = some [49, 124, 195, 169, 10] := by decide +kernel
  obtain ⟨b, hb, ht⟩ := Option.map_eq_some_iff.1 h
  exact ⟨b, hb, (shows_iff (reachable_ready (forward_any (World.texts_history worldEnd_history _ b hb))).wf).2 ht⟩

/-- C95, violated: a client says something that ends with a character of more than one byte, looks at the messages and goes to
their end; the next message, whatever it is and whoever sends it, kills the editor. -/
theorem C95_message_refuted : CoreHistory CleanName worldEnd ∧ ∀ who text, ∃ e, worldEnd.message envE who text = .error e := by
  refine ⟨worldEnd_history, fun who text => ?_⟩
  obtain ⟨ctx, m, hc, hn, hm, hl⟩ := worldEnd_sees
  obtain ⟨b, hb, hs⟩ := worldEnd_text
  have key : ∀ msg : Str, ∃ e, worldEnd.appendTo envE BUFFER_MESSAGES (Str.encode (msg ++ ['\n'])) = .error e := fun msg =>
    C95_append_refuted worldEnd_history (env := envE) clusters_ok hb hs rfl (encode_ends msg) hc hn hm hl (List.mem_singleton.2 rfl)
      rfl (n := 1) (pre := []) (line := [49, 124, 195, 169]) ⟨rfl, rfl, .inl rfl, by decide, .inr rfl, by decide⟩
      (by show (clusters [49, 124, 195, 169]).length < 4; simp [clusters])
  have hm : ∀ msg, ∃ e, (do
      let w ← worldEnd.appendTo envE BUFFER_MESSAGES (Str.encode (msg ++ ['\n']))
      return w.echo who text .default : R World) = .error e := by
    intro msg
    obtain ⟨e, he⟩ := key msg
    rw [he]
    exact ⟨e, rfl⟩
  exact hm _

/-- the hypotheses of `C95_append` hold in it -/
example : ¬ ∃ w', worldEnd.appendTo envE BUFFER_MESSAGES [98, 10] = .ok w' := by
  obtain ⟨ctx, m, hc, hn, hm, hl⟩ := worldEnd_sees
  obtain ⟨b, hb, hs⟩ := worldEnd_text
  have honly : ∀ c x, worldEnd.clients.map.get c = some x → c = 1 := by
    have h : worldEnd.clients.map.keys = [1] := by decide +kernel
    intro c x hx
    have := Assoc.mem_keys.2 (Assoc.has_iff.2 ⟨x, hx⟩)
    rw [h] at this
    simpa using this
  have hshow : CanBeShown envE.seg worldEnd 1 := by
    refine (C88_told (history_mono (fun _ _ _ => trivial) worldEnd_history) (env := envE) clusters_ok [1]).1 ?_ 1 (by simp)
    have h : (worldEnd.notifyViewUpdate envE [1]).toOption.isSome = true := by decide +kernel
    exact ⟨_, final_ok h⟩
  rw [C95_append worldEnd_history (env := envE) (x := [98, 10]) clusters_ok hb hs (by rfl) (by rfl)]
  · intro h
    have := h 1 ctx m _ _ hc hn hm hl (List.mem_singleton.2 rfl) rfl 1 [] [49, 124, 195, 169] ⟨rfl, rfl, .inl rfl, by decide, .inr rfl, by decide⟩
    have h4 : (clusters [49, 124, 195, 169]).length = 4 := this
    simp [clusters] at h4
  · intro c x hx _
    have := honly c x hx
    subst this
    rw [hc] at hx; cases hx
    refine ⟨hshow, fun m' l' sel' hm' hl' hsel' => ?_⟩
    rw [hm] at hm'; cases hm'
    rw [hl] at hl'; cases hl'
    rw [List.mem_singleton.1 hsel']
    decide

/-- a session without motions: client 1 says `é`, opens the file `e`, whose text has an `é`, and a buffer named `é`; client 2 comes,
and looks at the file; `é` is appended to it; a view is closed -/
def opsStill : List CoreOp :=
  [.join 1 [], .message (some 1) ['é'], .edit 1 ['e'] false, .edit 1 ['é'] true, .join 2 [], .edit 2 ['e'] false,
    .append ['e'] 195 [169, 10], .view 1 (str!"e{*}"), .viewAdd 2 ['é'], .viewRemove 2 ['é'], .viewDelete 2]

/-- a check of safety that can be computed -/
def stillB (env : Env) (w : World) : CoreOp → Bool
  | .join _ _ => !w.clients.stack.isEmpty || decide (w.views.map.length = 1)
  | .leave _ => true
  | .edit c name scratch => w.clients.map.has c && !name.contains '{' && (scratch ||
      match w.buffers.get name with
      | none => decide ((env.fs (env.resolve w.cwd name)).map (·.content) = some textE)
      | some b => match b.loadFromDisk env.stale env.fs env.now with
        | .ok r => decide (r.1.content.content.getLast? = some NL)
        | .error _ => false)
  | .scratch c name content => w.clients.map.has c && !name.contains '{' && (decide (content = []) || decide (content.getLast? = some NL))
  | .view c id => w.clients.map.has c && (w.views.map.has id || !w.buffers.has id)
  | .viewDelete c => match w.clients.map.get c with
    | some ctx => closableB w ctx.view
    | none => false
  | .viewAdd c _ => match w.clients.map.get c with
    | some ctx => w.clients.map.all fun d => noLeftoverB d.2 ctx.view
    | none => false
  | .viewRemove c b => match w.clients.map.get c with
    | some ctx => (decide (ctx.view.buffers ≠ [b]) || closableB w ctx.view) &&
        (decide (b ∉ ctx.view.buffers) || decide (ctx.view.buffers = [b]) || decide (BUFFER_DEBUG ∉ ctx.view.buffers) ||
          decide (b = BUFFER_DEBUG) || elsewhereB w ctx.view b)
    | none => false
  | .move _ _ _ => false
  | .deleteSelection _ => false
  | .append b x xs => !b.contains '{' && decide ((x :: xs).getLast? = some NL)
  | .debug _ => true
  | .message _ _ => true
  | .error _ _ _ => true
  | .notify _ _ => true

theorem textE_isText : IsText textE := ⟨str!"a\nbé\nc\n", by decide⟩

theorem stillB_ok {env : Env} {w : World} (hw : StillHistory w) (hf : ∀ i, (env.stale i).follows = true) {op : CoreOp}
    (h : stillB env w op = true) : SafeStill env w op := by
  have k := still_calm hw
  have i := k.inv
  cases op with
  | join id s =>
    intro hs
    simpa [stillB, hs] using h
  | edit c name sc =>
    simp only [stillB, Bool.and_eq_true, Bool.or_eq_true] at h
    refine ⟨h.1.1, by simpa using h.1.2, fun hsc => ?_⟩
    rcases h.2 with h2 | h2
    · rw [hsc] at h2; cases h2
    · refine ⟨fun hn => ?_, fun b hb => ?_⟩
      · rw [hn] at h2
        obtain ⟨f, e, hc⟩ := Option.map_eq_some_iff.1 (of_decide_eq_true h2)
        exact ⟨f, e, by rw [hc]; exact textE_isText⟩
      · rw [hb] at h2
        dsimp only at h2
        cases hl : b.loadFromDisk env.stale env.fs env.now with
        | error e => rw [hl] at h2; cases h2
        | ok r =>
          rw [hl] at h2
          have hfw := World.forward_load hf (k.drawn.good name b hb).history hl
          exact ⟨r.1, r.2, _, rfl, shows_content (reachable_ready (forward_any hfw)).wf, by simpa [EndsWithNewline] using h2⟩
  | scratch c name content =>
    simp only [stillB, Bool.and_eq_true, Bool.or_eq_true, decide_eq_true_eq] at h
    exact ⟨h.1.1, by simpa using h.1.2, h.2⟩
  | view c id =>
    simp only [stillB, Bool.and_eq_true, Bool.or_eq_true, Bool.not_eq_true'] at h
    exact h
  | viewDelete c =>
    simp only [stillB] at h
    cases hc : w.clients.map.get c with
    | none => rw [hc] at h; cases h
    | some ctx => rw [hc] at h; exact ⟨ctx, hc, closableB_ok i h⟩
  | viewAdd c b =>
    simp only [stillB] at h
    cases hc : w.clients.map.get c with
    | none => rw [hc] at h; cases h
    | some ctx =>
      rw [hc] at h
      refine ⟨ctx, hc, fun d x hd => ?_⟩
      exact noLeftoverB_ok (List.all_eq_true.1 h _ (Assoc.get_mem hd))
  | viewRemove c b =>
    simp only [stillB] at h
    cases hc : w.clients.map.get c with
    | none => rw [hc] at h; cases h
    | some ctx =>
      rw [hc] at h
      simp only [Bool.and_eq_true, Bool.or_eq_true, decide_eq_true_eq] at h
      refine ⟨ctx, hc, fun e => ?_, fun h1 h2 h3 h4 => ?_⟩
      · exact closableB_ok i (h.1.resolve_left (fun hne => hne e))
      · rcases h.2 with (((h5 | h5) | h5) | h5) | h5
        · exact absurd h1 h5
        · exact absurd h5 h2
        · exact absurd h3 h5
        · exact absurd h5 h4
        · exact elsewhereB_ok i h5
  | move c dir ext => cases h
  | deleteSelection c => cases h
  | append b x xs =>
    simp only [stillB, Bool.and_eq_true, decide_eq_true_eq] at h
    exact ⟨by simpa using h.1, h.2⟩
  | leave _ => trivial
  | debug _ => trivial
  | message _ _ => trivial
  | error _ _ _ => trivial
  | notify _ _ => trivial

/-- every request of the session is safe when its turn comes -/
def runStill : R World := do
  let w ← World.start envE [] [] []
  opsStill.foldlM (fun w op => if stillB envE w op then op.run envE w else .error .unwrap) w

example : StillHistory (final runStill) := by
  have h : runStill = .ok (final runStill) := final_ok (by decide +kernel)
  unfold runStill at h
  obtain ⟨w0, h0, h⟩ := bind_inv h
  refine foldlM_ind (P := StillHistory) h (.start clusters_ok h0) ?_
  intro op _ a a' ha hs
  split at hs
  · rename_i hb
    exact .step ha (stillB_ok ha (fun _ => rfl) hb) clusters_ok (fun _ => rfl) hs
  · cases hs

/-- client 1 opens the file `e` -/
def world0 : World := final (World.start envE [] [] [])
def world1 : World := final (CoreOp.run envE world0 (.join 1 []))
def world2 : World := final (CoreOp.run envE world1 (.edit 1 ['e'] false))
/-- its cursor goes down one line -/
def world3 : World := final (CoreOp.run envE world2 (.move 1 .down false))
/-- the character under the cursor is deleted -/
def world4 : World := final (CoreOp.run envE world3 (.deleteSelection 1))

theorem world1_any : AnyCharsHistory clusters world1 :=
  .step (env := envE) (w := world0) (op := .join 1 []) (.start (env := envE) (cwd := []) (args := []) (cwdText := []) rfl (final_ok (by decide +kernel)))
    (fun _ => by decide +kernel) rfl (fun _ => rfl) (final_ok (by decide +kernel))

theorem world2_any : AnyCharsHistory clusters world2 := by
  refine .step world1_any (env := envE) (op := .edit 1 ['e'] false) ⟨by decide +kernel, by decide, fun _ => ⟨fun _ => ?_, fun b hb => ?_⟩⟩ rfl (fun _ => rfl)
    (final_ok (by decide +kernel))
  · have h : (envE.fs (envE.resolve world1.cwd ['e'])).map (·.content) = some textE := by decide +kernel
    obtain ⟨f, hf, hc⟩ := Option.map_eq_some_iff.1 h
    exact ⟨f, hf, by rw [hc]; exact textE_isText⟩
  · have h : world1.buffers.get ['e'] = none := by decide +kernel
    rw [h] at hb; cases hb

/-- what client 1 sees -/
def seen (w : World) : Option (Str × Assoc Str (List Selection)) :=
  (w.clients.map.get 1).bind fun ctx => (ctx.selections.get ctx.view.key).map fun m => (ctx.view.key, m)

theorem seen_inv {w : World} {k : Str} {m : Assoc Str (List Selection)} (h : seen w = some (k, m)) :
    ∃ ctx, w.clients.map.get 1 = some ctx ∧ ctx.view.key = k ∧ ctx.selections.get ctx.view.key = some m := by
  obtain ⟨ctx, hc, h⟩ := Option.bind_eq_some_iff.1 h
  obtain ⟨m', hm, h⟩ := Option.map_eq_some_iff.1 h
  simp only [Prod.mk.injEq] at h
  obtain ⟨h1, rfl⟩ := h
  exact ⟨ctx, hc, h1, hm⟩

theorem textE_first : LineAt textE 1 [] [97] [10, 98, 195, 169, 10, 99, 10] :=
  ⟨rfl, rfl, .inl rfl, by decide, .inr rfl, by decide⟩

theorem text_of {w : World} (h : AnyCharsHistory clusters w) {n : Str} {b : Buffer} {s t : Bytes}
    (ht : (w.buffers.get n).map (fun b => b.content.content) = some t) (hb : w.buffers.get n = some b) (hs : Shows b.content s) : s = t := by
  rw [hb] at ht
  rw [← (shows_iff (reachable_ready (forward_any (World.texts_history (any_history h) n b hb))).wf).1 hs]
  exact Option.some.inj ht

theorem world3_any : AnyCharsHistory clusters world3 := by
  obtain ⟨ctx, hc, _, hm⟩ := seen_inv (w := world2) (k := str!"e{*}") (m := [(['e'], [⟨0, 0, 1⟩])]) (by decide +kernel)
  have hleft : ((world2.clients.map.get 1).map fun x => noLeftoverB x x.view) = some true := by decide +kernel
  rw [hc] at hleft
  refine .step world2_any (env := envE) (op := .move 1 .down false) ⟨ctx, hc, noLeftoverB_ok (Option.some.inj hleft), ?_⟩ rfl (fun _ => rfl)
    (final_ok (by decide +kernel))
  intro m n ss sel b s hm' hn hsel hb hs
  rw [hm] at hm'; cases hm'
  by_cases hne : n = ['e']
  · subst hne
    cases (show some ([⟨0, 0, 1⟩] : List Selection) = some ss from hn)
    rw [List.mem_singleton.1 hsel, text_of world2_any (t := textE) (by decide +kernel) hb hs]
    refine .inr ⟨2, 1, 2, ⟨1, 1, 0, ⟨[], [97], _, textE_first, .inr (.inl ⟨rfl, by decide, rfl⟩)⟩,
      ⟨[], [97], _, textE_first, by decide, by omega, rfl⟩, .down (by decide)⟩, ⟨_, _, _, textE_line, by decide, ?_⟩,
      C95_inside textE_line (by decide) (by decide) (by decide)⟩
    simp
  · have : Assoc.get [(['e'], ([⟨0, 0, 1⟩] : List Selection))] n = none := by
      simp [Assoc.get, Ne.symm hne]
    rw [this] at hn; cases hn

theorem textE_once {m c m' c' : Nat} (h : ReadAs clusters textE 7 m c) (h' : ReadAs clusters textE 7 m' c') : m = m' := by
  obtain ⟨_, hcont, _⟩ := withText_facts (s := textE) (by decide)
  have hst : SteadyHistory (PieceTable.withText textE) := forward_steady (.withText (by decide) trivial)
  rw [← hcont] at h h'
  exact (readAs_unique (reachable_ready (steady_any hst)).wf (steady_newlines hst) clusters_ok h h').1

theorem textF_line : LineAt [97, 10, 195, 169, 10, 99, 10] 2 [97, 10] [195, 169] [10, 99, 10] :=
  ⟨rfl, by decide, .inr rfl, by decide, .inr rfl, by decide⟩

/-- the `b` before the `é` is deleted -/
theorem world4_any : AnyCharsHistory clusters world4 := by
  obtain ⟨ctx, hc, hkey, hm⟩ := seen_inv (w := world3) (k := str!"e{*}") (m := [(['e'], [⟨2, 2, 1⟩])]) (by decide +kernel)
  have hleft : ((world3.clients.map.get 1).map fun x => noLeftoverB x x.view) = some true := by decide +kernel
  rw [hc] at hleft
  refine .step world3_any (env := envE) (op := .deleteSelection 1) ⟨ctx, hc, noLeftoverB_ok (Option.some.inj hleft), ?_⟩ rfl (fun _ => rfl)
    (final_ok (by decide +kernel))
  intro m n sel b s hm' hn hb hs
  rw [hm] at hm'; cases hm'
  by_cases hne : n = ['e']
  · subst hne
    cases (show some ([⟨2, 2, 1⟩] : List Selection) = some [sel] from hn)
    rw [text_of world3_any (t := textE) (by decide +kernel) hb hs]
    have hcl : clusters [98, 195, 169] = [] ++ [98] :: [[195, 169]] := by simp [clusters]
    have h3 : clusters [98, 195, 169] = [[98]] ++ [195, 169] :: [] := by simp [clusters]
    refine ⟨2, 3, ⟨rfl, .inr ⟨by decide, 1, 2, 2, 2, ⟨_, _, _, textE_line, .inr (.inr ⟨by decide, [], [98], _, 0, hcl, by decide, rfl, rfl⟩)⟩,
      ⟨2, 1, 2, ⟨_, _, _, textE_line, .inr (.inr ⟨by decide, [], [98], _, 0, hcl, by decide, rfl, rfl⟩)⟩,
        ⟨_, _, _, textE_line, by decide, by omega, by simp⟩, .right (b := 98) ?_ rfl (by decide)
          ⟨_, _, _, textE_line, .inr (.inr ⟨by decide, [[98]], [195, 169], [], 0, h3, by decide, rfl, rfl⟩)⟩⟩,
      ⟨_, _, _, textE_line, by decide, ?_⟩, by decide⟩⟩, by decide, .inl (by decide), ?_, ?_⟩
    · intro hr
      have h7 : ReadAs clusters textE 7 3 2 := ⟨[97, 10, 98, 195, 169, 10], [99], [10], ⟨rfl, by decide, .inr rfl, by decide, .inr rfl, by decide⟩,
        .inl ⟨by decide, rfl, rfl⟩⟩
      exact absurd (textE_once h7 hr) (by decide)
    · show 3 = 2 + _
      have : envE.seg [98, 195, 169] = [[98], [195, 169]] := by show clusters _ = _; simp [clusters]
      rw [this]
      rfl
    · exact ⟨by decide, by decide, C95_inside textF_line (by decide) (by decide) (by decide)⟩
    · intro d x k m' ss hd hk hx hg
      exfalso
      have hall : (world3.clients.map.all fun e => e.2.selections.all fun km => decide (e.1 = 1) && (decide (km.1 = str!"e{*}") || (km.2.get ['e']).isNone)) = true := by
        decide +kernel
      have h2 := List.all_eq_true.1 (List.all_eq_true.1 hall _ (Assoc.get_mem hd)) _ (Assoc.get_mem hk)
      simp only [Bool.and_eq_true, Bool.or_eq_true, decide_eq_true_eq] at h2
      rcases h2.2 with h3 | h3
      · exact hx ⟨h2.1, by rw [hkey]; exact h3⟩
      · rw [hg] at h3; cases h3
  · have : Assoc.get [(['e'], ([⟨2, 2, 1⟩] : List Selection))] n = none := by
      simp [Assoc.get, Ne.symm hne]
    rw [this] at hn; cases hn

/-- in the last state the client can be shown its view (C95_shown), and go to the start of its line (C95_home) -/
example : CanBeShown clusters world4 1 := (C95_shown clusters_ok world4_any).2 1 (by decide +kernel)

example : ∃ w', CoreOp.run envE world4 (.move 1 .lineBegin false) = .ok w' ∧ AnyCharsHistory clusters w' := by
  obtain ⟨ctx, hc, hkey, hm⟩ := seen_inv (w := world4) (k := str!"e{*}") (m := [(['e'], [⟨2, 2, 1⟩])]) (by decide +kernel)
  have hleft : ((world4.clients.map.get 1).map fun x => noLeftoverB x x.view) = some true := by decide +kernel
  rw [hc] at hleft
  refine C95_step clusters_ok world4_any rfl (fun _ => rfl) (C95_home clusters_ok world4_any rfl hc (noLeftoverB_ok (Option.some.inj hleft)) ?_ (.inr rfl))
  intro m n ss sel b s hm' hn hsel hb hs
  rw [hm] at hm'; cases hm'
  by_cases hne : n = ['e']
  · subst hne
    cases (show some ([⟨2, 2, 1⟩] : List Selection) = some ss from hn)
    rw [List.mem_singleton.1 hsel, text_of world4_any (t := [97, 10, 195, 169, 10, 99, 10]) (by decide +kernel) hb hs]
    exact C95_inside textF_line (by decide) (by decide) (by decide)
  · have : Assoc.get [(['e'], ([⟨2, 2, 1⟩] : List Selection))] n = none := by
      simp [Assoc.get, Ne.symm hne]
    rw [this] at hn; cases hn

end Ced.Props

import Verif.Props.Context

/-!
# Exactly when motions and changes of view crash, in texts of any characters (C99)
-/

namespace Ced.Props
open Spec PieceTable

variable {env : Env} {w : World}

theorem mapM_of_each {α β : Type} {f : α → R β} {l : List α} {ys : List β} (h : List.Forall₂ (fun x y => f x = .ok y) l ys) :
    l.mapM f = .ok ys := by
  induction h with
  | nil => rfl
  | cons h _ ih => rw [List.mapM_cons, h, except_bind_ok, ih]; rfl

theorem mapM_each_iff {α β : Type} {f : α → R β} {l : List α} {ys : List β} :
    l.mapM f = .ok ys ↔ List.Forall₂ (fun x y => f x = .ok y) l ys := ⟨mapM_each, mapM_of_each⟩

/-- in an empty text every motion crashes -/
theorem move_empty {t : PieceTable} (hw : t.WF) (hn : t.NewlinesOk) {seg : Segmentation} (hne : t.content = []) (d : CursorTarget)
    (ext : Bool) (sel : Selection) : ∃ e, Selection.move seg t d ext sel = .error e := by
  obtain ⟨e, he⟩ := navigate_empty (seg := seg) hw hn hne
  have h1 : Navigator.fromPosition seg t ⟨1, 1⟩ = .error e ∨ Navigator.fromPosition seg t ⟨1, 1⟩ = .ok none := by
    unfold Navigator.navigate Navigator.new at he
    cases h : Navigator.fromPosition seg t Navigator.BEGIN with
    | error x => rw [h] at he; exact .inl (h.trans he)
    | ok o =>
      cases o with
      | none => exact .inr h
      | some nv => rw [h] at he; cases he
  have hlen : t.len = 0 := by rw [hw.len_eq, hne]; rfl
  have hco : t.offsetToCoord seg sel.cursor = .ok (some ⟨1, 1⟩) ∨ t.offsetToCoord seg sel.cursor = .ok none := by
    unfold offsetToCoord
    split
    · exact .inl rfl
    · rename_i h0
      rw [maxOffset_eq hw, hne]
      simp only [except_bind_ok]
      rw [if_pos (by simp; omega)]
      exact .inr rfl
  unfold Selection.move
  rw [hlen, if_neg (by decide)]
  rcases hco with hco | hco <;> rw [hco, except_bind_ok]
  · unfold Navigator.navigate
    dsimp only
    rcases h1 with h1 | h1 <;> rw [h1]
    · exact ⟨_, rfl⟩
    · exact ⟨_, rfl⟩
  · rw [he]; exact ⟨_, rfl⟩

/-- C99 (one selection): a motion makes of a selection exactly what `MovesTo` says, and crashes when that is nothing. -/
theorem C99_selection {t : PieceTable} (h : SteadyHistory t) {s : Bytes} (hs : Shows t s) {seg : Segmentation}
    (hseg : IsSegmentation seg) (d : CursorTarget) (ext : Bool) (sel sel' : Selection) :
    Selection.move seg t d ext sel = .ok sel' ↔ MovesTo seg s d ext sel sel' := by
  have hw := (reachable_ready (steady_any h)).wf
  have hc := (shows_iff hw).1 hs
  rcases Nat.lt_trichotomy s.length 1 with h0 | h1 | h2
  · have he : s = [] := List.length_eq_zero_iff.1 (by omega)
    obtain ⟨e, hm⟩ := move_empty (seg := seg) hw (steady_newlines h) (hc.trans he) d ext sel
    rw [hm]
    constructor
    · intro h; cases h
    · rintro (⟨h, _⟩ | ⟨h, _⟩) <;> omega
  · rw [C20_one_byte (steady_any h) hs h1]
    constructor
    · intro e; exact .inl ⟨h1, (Except.ok.inj e).symm⟩
    · rintro (⟨_, e⟩ | ⟨h, _⟩)
      · rw [e]
      · omega
  · by_cases ho : sel.cursor < s.length
    · rw [C87_motion h hs hseg ho (by omega)]
      constructor
      · rintro ⟨n, w, o, q⟩
        exact .inr ⟨h2, sel.cursor, n, w, o, fun _ => rfl, fun h => by omega, q⟩
      · rintro (⟨h, _⟩ | ⟨_, e, n, w, o, e1, _, q⟩)
        · omega
        · rw [e1 ho] at q; exact ⟨n, w, o, q⟩
    · rw [C20_outside (steady_any h) hs (by intro e; rw [e] at h2; simp at h2) (by omega) seg d ext sel (by omega),
        C87_motion h hs hseg (sel := { sel with cursor := 0 }) (by show 0 < s.length; omega) (by omega)]
      constructor
      · rintro ⟨n, w, o, q⟩
        exact .inr ⟨h2, 0, n, w, o, fun h => by omega, fun _ => rfl, q⟩
      · rintro (⟨h, _⟩ | ⟨_, e, n, w, o, _, e1, q⟩)
        · omega
        · rw [e1 (by omega)] at q; exact ⟨n, w, o, q⟩

/-- What a motion makes of all the selections of a client in its view. -/
def MovesAll (env : Env) (w : World) (d : CursorTarget) (ext : Bool) (m m' : Assoc Str (List Selection)) : Prop :=
  List.Forall₂ (fun kv kv' => kv'.1 = kv.1 ∧ ∃ b s, w.buffers.get kv.1 = some b ∧ Shows b.content s ∧
    List.Forall₂ (MovesTo env.seg s d ext) kv.2 kv'.2) m m'

/-- The selections `m` can be drawn in the view `v`, in the texts that its buffers have now. -/
def CanDraw (env : Env) (w : World) (v : View) (m : Option (Assoc Str (List Selection))) : Prop :=
  ∀ n ∈ v.buffers, ∃ b s, w.buffers.get n = some b ∧ Shows b.content s ∧
    ∀ x l sel, m = some x → x.get n = some l → sel ∈ l → CanShow env.seg s (min sel.anchor sel.cursor) (max sel.anchor sel.cursor)

theorem canDraw_iff (h : CoreHistory (fun _ _ => True) w) (hseg : IsSegmentation env.seg) {v : View} (hv : AllWhole v)
    (m : Option (Assoc Str (List Selection))) :
    (∃ items, v.toNotificationParams env.seg w.buffers m = .ok items) ↔ CanDraw env w v m := by
  rw [render_iff (World.texts_history h) hseg m hv]
  constructor
  · intro q n hn
    obtain ⟨b, hb, hs⟩ := q n hn
    exact ⟨b, _, hb, shows_content (reachable_ready (forward_any (World.texts_history h n b hb))).wf, hs⟩
  · intro q n hn
    obtain ⟨b, s, hb, hs, hsel⟩ := q n hn
    refine ⟨b, hb, ?_⟩
    rw [← (shows_iff (reachable_ready (forward_any (World.texts_history h n b hb))).wf).1 hs] at hsel
    exact hsel

theorem movesAll_iff (h : CoreHistory (fun _ _ => True) w) (hseg : IsSegmentation env.seg) {d : CursorTarget} {ext : Bool}
    {m m' : Assoc Str (List Selection)} : m.mapM (w.moveBuffer env d ext) = .ok m' ↔ MovesAll env w d ext m m' := by
  rw [mapM_each_iff]
  have one : ∀ kv kv', w.moveBuffer env d ext kv = .ok kv' ↔ kv'.1 = kv.1 ∧ ∃ b s, w.buffers.get kv.1 = some b ∧
      Shows b.content s ∧ List.Forall₂ (MovesTo env.seg s d ext) kv.2 kv'.2 := by
    rintro ⟨n, l⟩ ⟨n', l'⟩
    unfold World.moveBuffer
    constructor
    · intro q
      obtain ⟨b, hb, q⟩ := bind_inv q
      obtain ⟨ss, hss, q⟩ := bind_inv q
      cases q
      have hb := Assoc.at_inv hb
      have ht := World.texts_history h n b hb
      have hs := shows_content (reachable_ready (forward_any ht)).wf
      exact ⟨rfl, b, _, hb, hs, forall2_mono (mapM_each hss) (fun x _ y e => (C99_selection (forward_steady ht) hs hseg d ext x y).1 e)⟩
    · rintro ⟨e, b, s, hb, hs, q⟩
      dsimp only at e hb q
      subst e
      have ht := World.texts_history h n' b hb
      rw [Assoc.at_ok hb, except_bind_ok, mapM_of_each (forall2_mono q (fun x _ y e => (C99_selection (forward_steady ht) hs hseg d ext x y).2 e))]
      rfl
  constructor
  · exact fun q => forall2_mono q fun x _ y e => (one x y).1 e
  · exact fun q => forall2_mono q fun x _ y e => (one x y).2 e

/-- C99 (motions): a request for a motion completes, and leaves the client with the selections `m'` in its view, exactly if they
are what the motion makes of the selections it had and - unless they are the same - they can be drawn.  In all other cases the
editor crashes. -/
theorem C99_motion (h : CoreHistory (fun _ _ => True) w) (hseg : IsSegmentation env.seg) {c : Nat} {ctx : ClientContext}
    (hc : w.clients.map.get c = some ctx) {m : Assoc Str (List Selection)} (hm : ctx.selections.get ctx.view.key = some m)
    (d : CursorTarget) (ext : Bool) (m' : Assoc Str (List Selection)) :
    (∃ w' ctx', w.moveCursor env c d ext = .ok w' ∧ w'.clients.map.get c = some ctx' ∧ ctx'.selections.get ctx.view.key = some m') ↔
      MovesAll env w d ext m m' ∧ (m' ≠ m → CanDraw env w ctx.view (some m')) := by
  have hv := (World.views_history allWhole h).clients c ctx hc
  constructor
  · rintro ⟨w', ctx', hr, hc', hs'⟩
    unfold World.moveCursor at hr
    rw [Assoc.at_ok hc, except_bind_ok] at hr
    dsimp only at hr
    rw [Assoc.at_ok hm, except_bind_ok] at hr
    obtain ⟨m1, hm1, hr⟩ := bind_inv hr
    have key : m1 = m' ∧ (m1 ≠ m → ∃ items, ctx.view.toNotificationParams env.seg w.buffers (some m1) = .ok items) := by
      split at hr
      · rename_i hne
        obtain ⟨ps, hps, rfl⟩ := World.notify_ok hr
        rw [List.mapM_cons] at hps
        obtain ⟨p, hp, hps⟩ := bind_inv hps
        obtain ⟨_, x, hx, hit⟩ := World.viewParams_inv hp
        have hx : Assoc.get (w.clients.map.set c _) c = some x := hx
        rw [Assoc.get_set_self] at hx
        cases hx
        have hc' : Assoc.get (w.clients.map.set c _) c = some ctx' := hc'
        rw [Assoc.get_set_self] at hc'
        cases hc'
        rw [Assoc.get_set_self] at hs' hit
        exact ⟨Option.some.inj hs', fun _ => ⟨_, hit⟩⟩
      · rename_i hne
        cases hr
        have hc' : Assoc.get (w.clients.map.set c _) c = some ctx' := hc'
        rw [Assoc.get_set_self] at hc'
        cases hc'
        rw [Assoc.get_set_self] at hs'
        exact ⟨Option.some.inj hs', fun h => absurd h hne⟩
    obtain ⟨rfl, hd⟩ := key
    exact ⟨(movesAll_iff h hseg).1 hm1, fun hne => (canDraw_iff h hseg hv _).1 (hd hne)⟩
  · rintro ⟨hm1, hd⟩
    have hm1 := (movesAll_iff h hseg).2 hm1
    unfold World.moveCursor
    rw [Assoc.at_ok hc, except_bind_ok]
    dsimp only
    rw [Assoc.at_ok hm, except_bind_ok, hm1, except_bind_ok]
    by_cases hne : m' = m
    · rw [if_neg (by simpa using hne)]
      refine ⟨_, _, rfl, Assoc.get_set_self .., ?_⟩
      exact Assoc.get_set_self ..
    · rw [if_pos hne]
      obtain ⟨items, hit⟩ := (canDraw_iff h hseg hv _).2 (hd hne)
      unfold World.notifyViewUpdate
      rw [List.mapM_cons]
      have hvp : World.viewParams env { w with clients := { w.clients with
          map := w.clients.map.set c { ctx with selections := ctx.selections.set ctx.view.key m' } } } c = .ok (c, items) := by
        unfold World.viewParams
        rw [Assoc.at_ok (Assoc.get_set_self ..), except_bind_ok]
        dsimp only
        rw [Assoc.get_set_self, hit]
        rfl
      rw [hvp]
      refine ⟨_, { ctx with selections := ctx.selections.set ctx.view.key m' }, rfl, ?_, Assoc.get_set_self ..⟩
      rw [World.viewUpdate_eq]
      exact Assoc.get_set_self ..

/-- C99 (changes of view): a client that asks for a view there is gets it exactly if the selections it has in that view can be
drawn; otherwise the editor crashes. -/
theorem C99_view (h : CoreHistory (fun _ _ => True) w) (hseg : IsSegmentation env.seg) {c : Nat} {ctx : ClientContext}
    (hc : w.clients.map.get c = some ctx) {id : Str} {v : View} (hid : w.views.map.get id = some v) :
    (∃ w' o, w.view env c id = .ok (w', o)) ↔ CanDraw env w v (ctx.selections.get v.key) := by
  have hv := (World.views_history allWhole h).views id v hid
  rw [← canDraw_iff h hseg hv]
  have hex : w.viewExists id = true := by
    unfold World.viewExists
    exact Assoc.has_iff.2 ⟨v, hid⟩
  unfold World.view
  rw [if_pos hex, Assoc.at_ok hid, except_bind_ok, hc]
  constructor
  · rintro ⟨w', o, hr⟩
    obtain ⟨_, hx, hr⟩ := bind_inv hr
    cases hx
    obtain ⟨w1, hn, hr⟩ := bind_inv hr
    obtain ⟨ps, hps, rfl⟩ := World.notify_ok hn
    rw [List.mapM_cons] at hps
    obtain ⟨p, hp, hps⟩ := bind_inv hps
    obtain ⟨_, x, hx, hit⟩ := World.viewParams_inv hp
    have hx : Assoc.get (w.clients.map.set c _) c = some x := hx
    rw [Assoc.get_set_self] at hx
    cases hx
    exact ⟨_, hit⟩
  · rintro ⟨items, hit⟩
    obtain ⟨W, hW⟩ : ∃ W : World, W = { w with clients := { w.clients with map := w.clients.map.set c { ctx with view := v } } } := ⟨_, rfl⟩
    have hvp : World.viewParams env W c = .ok (c, items) := by
      unfold World.viewParams
      rw [hW, Assoc.at_ok (Assoc.get_set_self ..), except_bind_ok]
      dsimp only
      rw [hit]
      rfl
    have hn : W.notifyViewUpdate env [c] = .ok (W.viewUpdate [(c, items)]) := by
      unfold World.notifyViewUpdate
      rw [List.mapM_cons, hvp]
      rfl
    refine ⟨W.viewUpdate [(c, items)], none, ?_⟩
    unfold unwrapR
    rw [except_bind_ok]
    dsimp only
    rw [← hW, hn]
    rfl

/-! ## Motions that crash -/

theorem hidden_newline {seg : Segmentation} (hseg : IsSegmentation seg) {s : Bytes} (he : EndsWithNewline s) {n : Nat}
    {pre line suf : Bytes} (hline : LineAt s n pre line suf) (hlast : suf ≠ [NL]) (hmb : (seg line).length < line.length)
    {a : Nat} (ha : a ≤ pre.length + line.length) : ¬ CanShow seg s a (pre.length + line.length) := by
  obtain ⟨x0, hsuf⟩ := ends_suf he hline
  have hlen := hline.length
  rw [C88_where hseg he ha (by rw [hsuf] at hlen; simp at hlen; omega)]
  rw [hsuf] at hlen hlast
  simp only [List.length_cons] at hlen
  rintro (e | ⟨n2, pre2, line2, suf2, hl2, q1, q2, q3⟩)
  · have : x0 = [] := List.length_eq_zero_iff.1 (by omega)
    exact hlast (by rw [this])
  · have heq : n2 = n := (at_unique (s := s) (o := pre.length + line.length)
      ⟨pre2, line2, suf2, hl2, Nat.succ_pos (pre.length + line.length - pre2.length), by omega, by simp; omega⟩
      ⟨pre, line, suf, hline, Nat.succ_pos line.length, by omega, rfl⟩).1
    subst heq
    obtain ⟨rfl, rfl, _⟩ := hline.unique hl2
    rcases q3 with ⟨_, q3⟩ | q3 | ⟨q3, _⟩ <;> omega

theorem get_forall2 {α β : Type} [DecidableEq α] {P : α → β → β → Prop} {m m' : List (α × β)}
    (h : List.Forall₂ (fun kv kv' => kv'.1 = kv.1 ∧ P kv.1 kv.2 kv'.2) m m') {k : α} {v : β} (hv : Assoc.get m k = some v) :
    ∃ v', Assoc.get m' k = some v' ∧ P k v v' := by
  induction h with
  | nil => cases hv
  | @cons x y l l' hxy _ ih =>
    obtain ⟨k0, v0⟩ := x
    obtain ⟨k1, v1⟩ := y
    obtain ⟨e, hp⟩ := hxy
    dsimp only at e hp
    subst e
    unfold Assoc.get at hv ⊢
    by_cases hk : k1 = k
    · subst hk
      rw [if_pos rfl] at hv ⊢
      cases hv
      exact ⟨_, rfl, hp⟩
    · rw [if_neg hk] at hv ⊢
      exact ih hv

/-- C99, violated: a motion that heads for a column behind the last character of a line - to the line above or below, whose
length is less than the wished column, or back from the start of the next line - crashes the editor if that line has a
character of more than one byte and is not the last one: whatever else the client selects and whoever else is connected. -/
theorem C99_newline_refuted (h : CoreHistory (fun _ _ => True) w) (hseg : IsSegmentation env.seg)
    {c : Nat} {ctx : ClientContext} (hctx : w.clients.map.get c = some ctx) {name : Str} (hname : name ∈ ctx.view.buffers)
    {m : Assoc Str (List Selection)} (hm : ctx.selections.get ctx.view.key = some m) {l : List Selection}
    (hl : m.get name = some l) {sel : Selection} (hsel : sel ∈ l) {b : Buffer} (hb : w.buffers.get name = some b) {s : Bytes}
    (hs : Shows b.content s) (he : EndsWithNewline s) {d : CursorTarget} {n col : Nat}
    (hh : Headed env.seg s sel.cursor sel.targetCol d n col) (hcur : sel.cursor < s.length) {pre line suf : Bytes}
    (hline : LineAt s n pre line suf) (hlast : suf ≠ [NL]) (hmb : (env.seg line).length < line.length)
    (hcol : (env.seg line).length < col) (hne : sel.cursor ≠ pre.length + line.length) {ext : Bool}
    (hext : ext = true → sel.anchor ≤ pre.length + line.length) :
    ∃ e, w.moveCursor env c d ext = .error e := by
  cases hr : w.moveCursor env c d ext with
  | error e => exact ⟨e, rfl⟩
  | ok w' =>
    exfalso
    obtain ⟨_, _, _, _, _, x, x', m1, m', hx, hx', _, _, _, hk', _, _⟩ := C34_motion hr
    rw [hctx] at hx; cases hx
    obtain ⟨hall, hdraw⟩ := (C99_motion h hseg hctx hm d ext m').1 ⟨w', x', hr, hx', hk'⟩
    obtain ⟨l', hl', b1, s1, hb1, hs1, hmoves⟩ := get_forall2 (P := fun k v v' => ∃ b s, w.buffers.get k = some b ∧ Shows b.content s ∧
      List.Forall₂ (MovesTo env.seg s d ext) v v') hall hl
    rw [hb] at hb1; cases hb1
    have := PieceTable.shows_unique hs hs1
    subst this
    obtain ⟨x0, hsuf⟩ := ends_suf he hline
    have hlen := hline.length
    have hst := forward_steady (World.texts_history h name b hb)
    have hlt : pre.length + line.length < s.length := by rw [hsuf] at hlen; simp at hlen; omega
    have hmove : MovesTo env.seg s d ext sel ⟨if ext then sel.anchor else pre.length + line.length, pre.length + line.length, col⟩ := by
      refine .inr ⟨by omega, sel.cursor, n, col, pre.length + line.length, fun _ => rfl, fun h => by omega, hh, ?_, hlt, rfl⟩
      refine ⟨pre, line, suf, hline, by omega, ?_⟩
      rw [Nat.min_eq_right hcol, Nat.succ_sub_one, List.take_length, hseg.flatten]
    have hmem : ∀ {l l' : List Selection}, List.Forall₂ (MovesTo env.seg s d ext) l l' → sel ∈ l →
        ⟨if ext then sel.anchor else pre.length + line.length, pre.length + line.length, col⟩ ∈ l' ∧ l' ≠ l := by
      intro l l' hf
      induction hf with
      | nil => intro h; cases h
      | @cons y y' l l' hy _ ih =>
        intro hs'
        rcases List.mem_cons.1 hs' with rfl | hs'
        · have e1 := (C99_selection hst hs hseg d ext _ _).2 hmove
          have e2 := (C99_selection hst hs hseg d ext _ _).2 hy
          rw [e1] at e2
          cases e2
          refine ⟨by simp, fun e => hne ?_⟩
          exact (congrArg Selection.cursor (List.cons.inj e).1).symm
        · exact ⟨by simp [(ih hs').1], fun e => (ih hs').2 (List.cons.inj e).2⟩
    obtain ⟨hin, hdiff⟩ := hmem hmoves hsel
    obtain ⟨b2, s2, hb2, hs2, hcan⟩ := hdraw (fun e => by rw [e, hl] at hl'; exact hdiff (Option.some.inj hl').symm) name hname
    rw [hb] at hb2; cases hb2
    have := PieceTable.shows_unique hs hs2
    subst this
    have hcan := hcan m' l' _ rfl hl' hin
    have hanc : (if ext then sel.anchor else pre.length + line.length) ≤ pre.length + line.length := by
      split
      · exact hext (by assumption)
      · exact Nat.le_refl _
    dsimp only at hcan
    rw [Nat.max_eq_right hanc, Nat.min_eq_left hanc] at hcan
    exact hidden_newline hseg he hline hlast hmb hanc hcan

theorem off_line {t : PieceTable} (ht : SteadyHistory t) {seg : Segmentation} (hseg : IsSegmentation seg) {s : Bytes} (hs : Shows t s)
    (he : EndsWithNewline s) {o k col : Nat} (hr : ReadAs seg s o k col) {n : Nat} {pre line suf : Bytes}
    (hline : LineAt s n pre line suf) (hkn : k ≠ n) : o < s.length ∧ o ≠ pre.length + line.length := by
  refine ⟨(readAs_lt hseg hr).1, fun e => hkn ?_⟩
  obtain ⟨x0, hsuf⟩ := ends_suf he hline
  have h2 : ReadAs seg s o n (line.length + 1) := ⟨pre, line, suf, hline, .inl ⟨by rw [hsuf]; simp, e, rfl⟩⟩
  have hw := (reachable_ready (steady_any ht)).wf
  rw [← (shows_iff hw).1 hs] at hr h2
  exact (readAs_unique hw (steady_newlines ht) hseg hr h2).1

section
variable (h : CoreHistory (fun _ _ => True) w) (hseg : IsSegmentation env.seg)
  {c : Nat} {ctx : ClientContext} (hctx : w.clients.map.get c = some ctx) {name : Str} (hname : name ∈ ctx.view.buffers)
  {m : Assoc Str (List Selection)} (hm : ctx.selections.get ctx.view.key = some m) {l : List Selection}
  (hl : m.get name = some l) {sel : Selection} (hsel : sel ∈ l) {b : Buffer} (hb : w.buffers.get name = some b) {s : Bytes}
  (hs : Shows b.content s) (he : EndsWithNewline s) {k col : Nat}
  -- the line and the column of the cursor, which are those of a character
  (hr : ReadAs env.seg s sel.cursor k col) {p : Nat} (hp : ClusterAt env.seg s p k col)
  -- another line, not the last one, with a character of more than one byte
  {n : Nat} {pre line suf : Bytes} (hline : LineAt s n pre line suf) (hlast : suf ≠ [NL])
  (hmb : (env.seg line).length < line.length)
include h hseg hctx hname hm hl hsel hb hs he hr hp hline hlast hmb

/-- C99, violated: going down to a line that has a character of more than one byte, and fewer characters than the wished
column, crashes the editor. -/
theorem C99_down_refuted (hkn : k + 1 = n) (hcol : (env.seg line).length < sel.targetCol) :
    ∃ e, w.moveCursor env c .down false = .error e := by
  obtain ⟨h1, h2⟩ := off_line (forward_steady (World.texts_history h name b hb)) hseg hs he hr hline (by omega)
  refine C99_newline_refuted h hseg hctx hname hm hl hsel hb hs he ⟨k, col, p, hr, hp, ?_⟩ h1 hline hlast hmb hcol h2 (fun h => by cases h)
  rw [← hkn]
  refine .down ?_
  have := lineAt_le hline
  unfold Spec.lineCount
  omega

/-- C99, violated: going up to a line that has a character of more than one byte, and fewer characters than the wished
column, crashes the editor. -/
theorem C99_up_refuted (hkn : k = n + 1) (hcol : (env.seg line).length < sel.targetCol) :
    ∃ e, w.moveCursor env c .up false = .error e := by
  obtain ⟨h1, h2⟩ := off_line (forward_steady (World.texts_history h name b hb)) hseg hs he hr hline (by omega)
  exact C99_newline_refuted h hseg hctx hname hm hl hsel hb hs he ⟨k, col, p, hr, hp, .up hkn hline.pos⟩ h1 hline hlast hmb hcol h2
    (fun h => by cases h)

/-- C99, violated: going left from the start of a line crashes the editor if the line before has a character of more than one
byte. -/
theorem C99_left_refuted (hkn : k = n + 1) (hcol : col = 1) :
    ∃ e, w.moveCursor env c .left false = .error e := by
  obtain ⟨h1, h2⟩ := off_line (forward_steady (World.texts_history h name b hb)) hseg hs he hr hline (by omega)
  exact C99_newline_refuted h hseg hctx hname hm hl hsel hb hs he ⟨k, col, p, hr, hp, .leftLine hkn hcol hline⟩ h1 hline hlast hmb (by omega) h2
    (fun h => by cases h)

end

/-! ## Sessions with `"abcd\né\nab\n"` -/

def envF : Env := { envA with
  seg := clusters
  fs := fun p => if p = [['f']] then some ⟨[97, 98, 99, 100, 10, 195, 169, 10, 97, 98, 10], 1⟩ else none }

def textF : Bytes := [97, 98, 99, 100, 10, 195, 169, 10, 97, 98, 10]

/-- client 1 opened the file and made some motions -/
def runF (ds : List CursorTarget) : R World := do
  let w ← World.start envF [] [] []
  ([CoreOp.join 1 [], .edit 1 ['f'] false] ++ ds.map fun d => CoreOp.move 1 d false).foldlM (fun w op => op.run envF w) w

/-- what there is to know of client 1 -/
def seenF (w : World) : Option (List Str × Option (List Selection)) :=
  (w.clients.map.get 1).map fun ctx => (ctx.view.buffers, (ctx.selections.get ctx.view.key).bind fun m => m.get ['f'])

structure SessionF (w : World) (sel : Selection) : Prop where
  history : CoreHistory (fun _ _ => True) w
  client : ∃ ctx m, w.clients.map.get 1 = some ctx ∧ ['f'] ∈ ctx.view.buffers ∧ ctx.selections.get ctx.view.key = some m ∧
    m.get ['f'] = some [sel]
  buffer : ∃ b, w.buffers.get ['f'] = some b ∧ Shows b.content textF

theorem sessionF {ds : List CursorTarget} {sel : Selection} (h0 : (runF ds).toOption.isSome = true)
    (h1 : seenF (final (runF ds)) = some ([['f']], some [sel]))
    (h2 : ((final (runF ds)).buffers.get ['f']).map (fun b => b.content.content) = some textF) : SessionF (final (runF ds)) sel := by
  have hok := final_ok h0
  have hist : CoreHistory (fun _ _ => True) (final (runF ds)) := by
    generalize final (runF ds) = w at hok
    unfold runF at hok
    obtain ⟨w0, h0, h⟩ := bind_inv hok
    refine foldlM_ind (P := CoreHistory fun _ _ => True) h (.start h0) ?_
    intro op _ a a' ha hs
    exact .step (env := envF) ha trivial (fun _ => rfl) hs
  refine ⟨hist, ?_, ?_⟩
  · obtain ⟨ctx, hc, h⟩ := Option.map_eq_some_iff.1 h1
    simp only [Prod.mk.injEq] at h
    obtain ⟨m, hm, h2⟩ := Option.bind_eq_some_iff.1 h.2
    exact ⟨ctx, m, hc, by rw [h.1]; simp, hm, h2⟩
  · obtain ⟨b, hb, ht⟩ := Option.map_eq_some_iff.1 h2
    exact ⟨b, hb, (shows_iff (reachable_ready (forward_any (World.texts_history hist _ b hb))).wf).2 ht⟩

theorem textF_first : LineAt textF 1 [] [97, 98, 99, 100] [10, 195, 169, 10, 97, 98, 10] :=
  ⟨rfl, by decide, .inl rfl, by decide, .inr rfl, by decide⟩
theorem textF_second : LineAt textF 2 [97, 98, 99, 100, 10] [195, 169] [10, 97, 98, 10] :=
  ⟨rfl, by decide, .inr rfl, by decide, .inr rfl, by decide⟩
theorem textF_third : LineAt textF 3 [97, 98, 99, 100, 10, 195, 169, 10] [97, 98] [10] :=
  ⟨rfl, by decide, .inr rfl, by decide, .inr rfl, by decide⟩

/-- the hypotheses of `C99_down_refuted` (and of `C99_newline_refuted`): at the end of the first line -/
example : SessionF (final (runF [.lineEnd])) ⟨3, 3, 4⟩ ∧ ∃ e, (final (runF [.lineEnd])).moveCursor envF 1 .down false = .error e := by
  have q : SessionF (final (runF [.lineEnd])) ⟨3, 3, 4⟩ := sessionF (by decide +kernel) (by decide +kernel) (by decide +kernel)
  obtain ⟨ctx, m, hc, hv, hm, hl⟩ := q.client
  obtain ⟨b, hb, hs⟩ := q.buffer
  exact ⟨q, C99_down_refuted q.history (env := envF) clusters_ok hc hv hm hl (List.mem_singleton.2 rfl) hb hs rfl
    (k := 1) (col := 4) ⟨_, _, _, textF_first, .inr (.inl ⟨rfl, by decide, rfl⟩)⟩ (p := 3)
    ⟨_, _, _, textF_first, by decide, by simp [envF, clusters], by simp [envF, clusters]⟩ textF_second (by decide)
    (by simp [envF, clusters]) rfl (by simp [envF, clusters])⟩

/-- the hypotheses of `C99_up_refuted`: at the end of the text -/
example : SessionF (final (runF [.end])) ⟨10, 10, 3⟩ ∧ ∃ e, (final (runF [.end])).moveCursor envF 1 .up false = .error e := by
  have q : SessionF (final (runF [.end])) ⟨10, 10, 3⟩ := sessionF (by decide +kernel) (by decide +kernel) (by decide +kernel)
  obtain ⟨ctx, m, hc, hv, hm, hl⟩ := q.client
  obtain ⟨b, hb, hs⟩ := q.buffer
  exact ⟨q, C99_up_refuted q.history (env := envF) clusters_ok hc hv hm hl (List.mem_singleton.2 rfl) hb hs rfl
    (k := 3) (col := 3) ⟨_, _, _, textF_third, .inl ⟨by decide, rfl, rfl⟩⟩ (p := 10)
    ⟨_, _, _, textF_third, by decide, by simp [envF, clusters], by simp [envF, clusters]⟩ textF_second (by decide)
    (by simp [envF, clusters]) rfl (by simp [envF, clusters])⟩

/-- the hypotheses of `C99_left_refuted`: at the start of the last line -/
example : SessionF (final (runF [.end, .lineBegin])) ⟨8, 8, 1⟩ ∧
    ∃ e, (final (runF [.end, .lineBegin])).moveCursor envF 1 .left false = .error e := by
  have q : SessionF (final (runF [.end, .lineBegin])) ⟨8, 8, 1⟩ := sessionF (by decide +kernel) (by decide +kernel) (by decide +kernel)
  obtain ⟨ctx, m, hc, hv, hm, hl⟩ := q.client
  obtain ⟨b, hb, hs⟩ := q.buffer
  exact ⟨q, C99_left_refuted q.history (env := envF) clusters_ok hc hv hm hl (List.mem_singleton.2 rfl) hb hs rfl
    (k := 3) (col := 1) ⟨_, _, _, textF_third, .inr (.inr ⟨by decide, [], [97], [[98]], 0, by simp [envF, clusters], by decide, rfl, rfl⟩)⟩
    (p := 8) ⟨_, _, _, textF_third, by decide, by simp [envF, clusters], by simp⟩ textF_second (by decide)
    (by simp [envF, clusters]) rfl rfl⟩

/-- and `C99_motion`, `C99_view`: a motion that completes, in the same session -/
example : (∃ w', (final (runF [.end])).moveCursor envF 1 .lineBegin false = .ok w') ∧
    ∃ ctx m, (final (runF [.end])).clients.map.get 1 = some ctx ∧ ctx.selections.get ctx.view.key = some m ∧
      ∃ m', m' ≠ m ∧ MovesAll envF (final (runF [.end])) .lineBegin false m m' ∧ CanDraw envF (final (runF [.end])) ctx.view (some m') := by
  have hok : ((final (runF [.end])).moveCursor envF 1 .lineBegin false).toOption.isSome = true := by decide +kernel
  have hr := final_ok hok
  refine ⟨⟨_, hr⟩, ?_⟩
  have q : SessionF (final (runF [.end])) ⟨10, 10, 3⟩ := sessionF (by decide +kernel) (by decide +kernel) (by decide +kernel)
  obtain ⟨ctx, m, hc, hv, hm, hl⟩ := q.client
  obtain ⟨_, _, _, _, _, x, x', m1, m', hx, hx', _, _, hk, hk', _, hd⟩ := C34_motion hr
  rw [hc] at hx; cases hx
  rw [hm] at hk; cases hk
  obtain ⟨h1, h2⟩ := (C99_motion q.history clusters_ok hc hm _ _ m').1 ⟨_, x', hr, hx', hk'⟩
  refine ⟨ctx, m, hc, hm, m', ?_, h1, h2 ?_⟩ <;>
  · rintro rfl
    have h3 : seenF (final ((final (runF [.end])).moveCursor envF 1 .lineBegin false)) = some ([['f']], some [⟨8, 8, 1⟩]) := by decide +kernel
    obtain ⟨y, hy, h4⟩ := Option.map_eq_some_iff.1 h3
    rw [hx'] at hy; cases hy
    simp only [Prod.mk.injEq] at h4
    have hv' : x'.view = ctx.view := by assumption
    rw [hv', hk'] at h4
    have h5 := h4.2
    simp only [Option.bind_some] at h5
    rw [hl] at h5
    simp at h5

end Ced.Props

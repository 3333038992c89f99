import Verif.Proofs.CoreDelete
import Verif.Props.CoreMove

/-! # Properties of the editor: deleting the selection, the context of scripts (C22, C23, C58, C61) -/

namespace Ced.Props
open Ced Ced.Spec PieceTable

/-- Where a selection begins and ends: the two ends are included. -/
def lo (sel : Selection) : Nat := min sel.anchor sel.cursor
def hi (sel : Selection) : Nat := max sel.anchor sel.cursor

/-- The text selected, and what remains without it: never nothing. -/
def selectedText (s : Bytes) (sel : Selection) : Bytes := slice s (lo sel) (hi sel + 1)
def remaining (s : Bytes) (sel : Selection) : Bytes :=
  if lo sel = 0 ∧ hi sel + 1 = s.length then [NL] else cut s (lo sel) (hi sel + 1 - lo sel)

/-- The ends of a selection are offsets of the text. -/
def Within (s : Bytes) (sel : Selection) : Prop := sel.anchor < s.length ∧ sel.cursor < s.length

/-- The buffer `b` holds an ASCII text ended by a newline, in which the selections are. -/
def Plain (w : World) (b : Str) (sels : List Selection) (s : Bytes) : Prop :=
  ∃ buf, w.buffers.get b = some buf ∧ Shows buf.content s ∧ Ascii s ∧ EndsWithNewline s ∧ ∀ sel ∈ sels, Within s sel

theorem plain_intro {w : World} (h : CoreHistory CleanName w) {b : Str} {l : List Selection} {s : Bytes}
    (h1 : (w.buffers.get b).map (fun x => x.content.content) = some s) (ha : ∀ x ∈ s, x < 128) (he : s.getLast? = some NL)
    (hw : ∀ sel ∈ l, sel.anchor < s.length ∧ sel.cursor < s.length) : Plain w b l s := by
  cases hb : w.buffers.get b with
  | none => rw [hb] at h1; cases h1
  | some buf =>
    rw [hb] at h1
    have h1 : some buf.content.content = some s := h1
    cases h1
    exact ⟨buf, hb, (shows_iff (reachable_ready (forward_any (World.texts_history h b buf hb))).wf).2 rfl, ha, he, hw⟩

/-- client 1 shows `f` and `g` and has selected `23` in `f` and `a`, newline in `g` -/
def opsD : List CoreOp :=
  [.join 1 [], .edit 1 ['g'] false, .edit 1 ['f'] false, .move 1 .right false, .viewAdd 1 ['g'], .move 1 .right true]
def wD : World := final (checked (fun _ => cleanB) opsD)
def mD : Assoc Str (List Selection) := [(['f'], [⟨1, 2, 3⟩]), (['g'], [⟨0, 1, 2⟩])]
theorem wD_history : CoreHistory CleanName wD := checked_history (fun _ _ => cleanB_ok) (final_ok (by decide +kernel))
theorem wD_client : ∃ ctx, wD.clients.map.get 1 = some ctx ∧ ctx.selections.get ctx.view.key = some mD := by
  have h : (wD.clients.map.get 1).bind (fun ctx => ctx.selections.get ctx.view.key) = some mD := by decide +kernel
  cases hc : wD.clients.map.get 1 with
  | none => rw [hc] at h; cases h
  | some ctx => rw [hc] at h; exact ⟨ctx, rfl, h⟩
theorem wD_plain : ∀ b l, mD.get b = some l → ∃ s, Plain wD b l s := by
  intro b l h
  unfold mD at h
  simp only [Assoc.get] at h
  split at h
  · rename_i e; subst e; cases h
    exact ⟨[49, 50, 51, 52, 53, 10], plain_intro wD_history (by decide +kernel) (by decide) (by decide) (by decide)⟩
  · split at h
    · rename_i e; subst e; cases h
      exact ⟨[97, 10, 98, 10], plain_intro wD_history (by decide +kernel) (by decide) (by decide) (by decide)⟩
    · cases h

/-! ## C58 -/

/-- What a script must be told of a selection. -/
def Described (s : Bytes) (sel : Selection) (d : World.SelectionData) : Prop :=
  d.anchor.1 = sel.anchor ∧ At s sel.anchor d.anchor.2.l d.anchor.2.c ∧
  d.cursor.1 = sel.cursor ∧ At s sel.cursor d.cursor.2.l d.cursor.2.c ∧ d.text = selectedText s sel

theorem mapM_forall2 {α β : Type} {f : α → R β} {P : α → β → Prop} {l : List α} (h : ∀ x ∈ l, ∃ y, f x = .ok y ∧ P x y) :
    ∃ ys, l.mapM f = .ok ys ∧ List.Forall₂ P l ys := by
  induction l with
  | nil => exact ⟨[], rfl, .nil⟩
  | cons x l ih =>
    obtain ⟨y, hy, hp⟩ := h x List.mem_cons_self
    obtain ⟨ys, hys, hf⟩ := ih fun z hz => h z (List.mem_cons_of_mem _ hz)
    exact ⟨y :: ys, by rw [List.mapM_cons, hy, except_bind_ok, hys]; rfl, .cons hp hf⟩

/-- C58: the context given to a script names the view of the client and describes each of its selections in it. -/
theorem C58_context {w : World} (h : CoreHistory CleanName w) {env : Env} (hseg : IsSegmentation env.seg) {c : Nat}
    {ctx : ClientContext} {m : Assoc Str (List Selection)} (hc : w.clients.map.get c = some ctx)
    (hm : ctx.selections.get ctx.view.key = some m) (hin : ∀ b l, m.get b = some l → ∃ s, Plain w b l s) :
    ∃ data, w.getContext env c = .ok (ctx.view.key, data) ∧
      List.Forall₂ (fun kv d => d.1 = kv.1 ∧ ∃ s, Plain w kv.1 kv.2 s ∧ List.Forall₂ (Described s) kv.2 d.2) m data := by
  have hone := World.maps_history World.oneEach_stable h c ctx hc _ _ hm
  unfold World.getContext
  rw [Assoc.at_ok hc, except_bind_ok, Assoc.at_ok hm, except_bind_ok]
  obtain ⟨data, hd, hf⟩ := mapM_forall2 (l := m) (f := fun kv => do
      let d ← kv.2.mapM (w.selectionData env kv.1)
      return (kv.1, d)) (P := fun kv d => d.1 = kv.1 ∧ ∃ s, Plain w kv.1 kv.2 s ∧ List.Forall₂ (Described s) kv.2 d.2) (by
    intro kv hkv
    obtain ⟨s, hp⟩ := hin kv.1 kv.2 (Assoc.mem_get hone.1 hkv)
    obtain ⟨buf, hb, hs, ha, he, hw⟩ := id hp
    have hfw := World.texts_history h kv.1 buf hb
    obtain ⟨ds, hds, hf⟩ := mapM_forall2 (l := kv.2) (f := w.selectionData env kv.1) (P := Described s) (by
      intro sel hsel
      obtain ⟨h1, h2⟩ := hw sel hsel
      obtain ⟨n1, c1, at1, o1, _⟩ := C14_roundtrip (forward_steady hfw) hs ha hseg h1
      obtain ⟨n2, c2, at2, o2, _⟩ := C14_roundtrip (forward_steady hfw) hs ha hseg h2
      obtain ⟨e1, e2⟩ := C21_selection (forward_steady hfw) hs ha he hseg h1 h2
      refine ⟨{ anchor := (sel.anchor, ⟨n1, c1⟩), cursor := (sel.cursor, ⟨n2, c2⟩), text := selectedText s sel }, ?_,
        rfl, at1, rfl, at2, rfl⟩
      unfold World.selectionData World.getCoord World.getSelectedText
      rw [hb]
      dsimp only
      rw [o1, o2, e1]
      simp only [except_bind_ok, unwrapR, e2]
      rfl)
    exact ⟨(kv.1, ds), by rw [hds]; rfl, rfl, s, hp, hf⟩)
  exact ⟨data, by rw [hd]; rfl, hf⟩

theorem forall2_length {α β : Type} {P : α → β → Prop} {as : List α} {bs : List β} (h : List.Forall₂ P as bs) :
    as.length = bs.length := by
  induction h with
  | nil => rfl
  | cons _ _ ih => simp [ih]

example : ∃ ctx data, wD.getContext envA 1 = .ok (ctx, data) ∧ data.length = 2 := by
  obtain ⟨ctx, h1, h2⟩ := wD_client
  obtain ⟨data, h, hf⟩ := C58_context wD_history (env := envA) bytewise_ok h1 h2 wD_plain
  exact ⟨_, data, h, (forall2_length hf).symm⟩
example : (wD.getContext envA 1).toOption.map (fun r => r.2.map fun d => (d.1, d.2.map (·.text))) =
    some [(['f'], [[50, 51]]), (['g'], [[97, 10]])] := by decide +kernel

/-! ## C22 -/

theorem shows_unique {t : PieceTable} {s s' : Bytes} (h : AnyHistory t) (h1 : Shows t s) (h2 : Shows t s') : s = s' := by
  have hw := (reachable_ready h).wf
  rw [← (shows_iff hw).1 h1, ← (shows_iff hw).1 h2]

/-- the deletion of one selection in a buffer -/
theorem deleteInBuffer_one {env : Env} (hf : ∀ i, (env.stale i).follows = true) (hseg : IsSegmentation env.seg) {b b' : Buffer}
    {s : Bytes} {sel : Selection} {dl : List Bytes} (h : ForwardHistory b.content) (hs : Shows b.content s) (ha : Ascii s)
    (he : EndsWithNewline s) (hin : Within s sel) (hd : World.deleteInBuffer env b [sel] = .ok (b', dl)) :
    dl = [selectedText s sel] ∧ Shows b'.content (remaining s sel) ∧ ForwardHistory b'.content := by
  obtain ⟨e1, e2⟩ := C21_selection (forward_steady h) hs ha he hseg hin.1 hin.2
  unfold World.deleteInBuffer World.deleteOne at hd
  simp only [List.foldlM_cons, List.foldlM_nil] at hd
  rw [e1] at hd
  simp only [except_bind_ok, e2] at hd
  obtain ⟨r, hr, hd⟩ := bind_inv hd
  obtain ⟨st, hst, hr⟩ := bind_inv hr
  obtain ⟨t, ht, hst⟩ := bind_inv hst
  cases hst
  cases hr
  cases hd
  unfold World.deleteRange at ht
  rw [if_neg (by omega)] at ht
  have hhi : hi sel < s.length := by unfold hi; have := hin.1; have := hin.2; omega
  have hlo : lo sel ≤ hi sel := by unfold lo hi; omega
  have hft := World.forward_delete h (hf 0) ht
  have hsh : Shows t (cut s (lo sel) (hi sel + 1 - lo sel)) := by
    rcases C02_delete (forward_any h) hs (hf 0) (lo sel) (hi sel + 1 - lo sel) with ⟨t', h1, h2⟩ | ⟨_, h1, _⟩
    · have := h1.symm.trans ht
      cases this; exact h2
    · have := h1.symm.trans ht
      cases this
  have hcut : cut s (lo sel) (hi sel + 1 - lo sel) = [] ↔ lo sel = 0 ∧ hi sel + 1 = s.length := by
    unfold cut
    rw [List.append_eq_nil_iff, List.take_eq_nil_iff, List.drop_eq_nil_iff]
    constructor
    · rintro ⟨h1 | h1, h2⟩
      · omega
      · subst h1; simp at hhi
    · rintro ⟨h1, h2⟩; exact ⟨Or.inl h1, by omega⟩
  have hemp : t.isEmpty = true ↔ lo sel = 0 ∧ hi sel + 1 = s.length := by
    rw [PieceTable.isEmpty_iff (reachable_ready (forward_any hft)).wf,
      (shows_iff (reachable_ready (forward_any hft)).wf).1 hsh, hcut]
  refine ⟨rfl, ?_, ?_⟩
  · show Shows (if t.isEmpty then t.append [NL] else t) _
    unfold remaining
    by_cases hx : lo sel = 0 ∧ hi sel + 1 = s.length
    · rw [if_pos (hemp.2 hx), if_pos hx]
      have := C01_append (forward_any hft) hsh (x := [NL]) (by simp)
      rw [hcut.2 hx] at this
      exact this
    · rw [if_neg (fun e => hx (hemp.1 e)), if_neg hx]; exact hsh
  · show ForwardHistory (if t.isEmpty then t.append [NL] else t)
    split
    · exact World.forward_append hft (by simp)
    · exact hft

theorem forall2_flatten {α β : Type} {P : α → List β → Prop} {Q : α → β → Prop} {as : List α} {bs : List (List β)}
    (h : List.Forall₂ P as bs) (hi : ∀ a b, P a b → ∃ y, b = [y] ∧ Q a y) : List.Forall₂ Q as bs.flatten := by
  induction h with
  | nil => exact .nil
  | cons hp _ ih =>
    obtain ⟨y, rfl, hq⟩ := hi _ _ hp
    exact .cons hq ih

theorem zip_names {P : Str × List Selection → List Bytes → Prop} {m : Assoc Str (List Selection)} {dls : List (List Bytes)}
    (h : List.Forall₂ P m dls) (hi : ∀ a b, P a b → b ≠ []) :
    ((List.zip m dls).filterMap fun p => if p.2 = [] then none else some p.1.1) = Assoc.keys m := by
  unfold Assoc.keys
  induction h with
  | nil => rfl
  | cons hp _ ih => simp [hi _ _ hp, ih]

/-- everything a deletion does -/
theorem delete_spec {w w' : World} (h : CoreHistory CleanName w) {env : Env} (hf : ∀ i, (env.stale i).follows = true)
    (hseg : IsSegmentation env.seg) {c : Nat} {ctx : ClientContext} {m : Assoc Str (List Selection)}
    (hc : w.clients.map.get c = some ctx) (hm : ctx.selections.get ctx.view.key = some m)
    (hin : ∀ b l, m.get b = some l → ∃ s, Plain w b l s) {r : List Bytes} (hd : w.deleteSelection env c = .ok (w', r)) :
    w'.views = w.views ∧ (∀ d, d ≠ c → w'.clients.map.get d = w.clients.map.get d) ∧
    (∀ b, m.get b = none → w'.buffers.get b = w.buffers.get b) ∧
    List.Forall₂ (fun kv text => ∃ sel s buf', kv.2 = [sel] ∧ Plain w kv.1 [sel] s ∧ text = selectedText s sel ∧
      w'.buffers.get kv.1 = some buf' ∧ Shows buf'.content (remaining s sel)) m r ∧
    ∃ x' m', w'.clients.map.get c = some x' ∧ x'.view = ctx.view ∧ x'.selections.get ctx.view.key = some m' ∧
      (∀ k, k ≠ ctx.view.key → x'.selections.get k = ctx.selections.get k) ∧
      (∀ b, m.get b = none → m'.get b = none) ∧
      ∀ b sel s, m.get b = some [sel] → Plain w b [sel] s → m'.get b = some [sel.clampTo ((remaining s sel).length - 1)] := by
  have hone := World.maps_history World.oneEach_stable h c ctx hc _ _ hm
  unfold World.deleteSelection at hd
  rw [Assoc.at_ok hc, except_bind_ok, Assoc.at_ok hm, except_bind_ok] at hd
  obtain ⟨st, hst, hd⟩ := bind_inv hd
  obtain ⟨w2, h2, hd⟩ := bind_inv hd
  obtain ⟨a1, a2, dls, a3, a4, a5⟩ := World.deleteAll_ok hone.1 hst
  -- what each buffer becomes
  have hall : List.Forall₂ (fun (kv : Str × List Selection) (dl : List Bytes) => ∃ sel s buf', kv.2 = [sel] ∧ Plain w kv.1 [sel] s ∧ dl = [selectedText s sel] ∧
      st.1.buffers.get kv.1 = some buf' ∧ Shows buf'.content (remaining s sel) ∧ ForwardHistory buf'.content) m dls := by
    refine forall2_imp a4 ?_
    rintro ⟨b, l⟩ hkv dl ⟨buf, buf', h1, h2, h3⟩
    have hg := Assoc.mem_get hone.1 hkv
    obtain ⟨sel, rfl⟩ := hone.2 b l hg
    obtain ⟨s, hp⟩ := hin b [sel] hg
    obtain ⟨buf0, hb, hs, ha, he, hw⟩ := id hp
    have h1 : w.buffers.get b = some buf := h1
    rw [hb] at h1
    cases h1
    obtain ⟨d1, d2, d3⟩ := deleteInBuffer_one hf hseg (World.texts_history h b buf hb) hs ha he (hw sel (by simp)) h2
    exact ⟨sel, s, buf', rfl, hp, d1, h3, d2, d3⟩
  have hr : List.Forall₂ (fun (kv : Str × List Selection) text => ∃ sel s buf', kv.2 = [sel] ∧ Plain w kv.1 [sel] s ∧ text = selectedText s sel ∧
      st.1.buffers.get kv.1 = some buf' ∧ Shows buf'.content (remaining s sel)) m dls.flatten := by
    refine forall2_flatten hall ?_
    rintro kv dl ⟨sel, s, buf', e1, e2, rfl, e4, e5, _⟩
    exact ⟨_, rfl, sel, s, buf', e1, e2, rfl, e4, e5⟩
  have hnames : st.2.2 = Assoc.keys m := by
    rw [a5]
    show [] ++ _ = _
    rw [List.nil_append]
    refine zip_names hall ?_
    rintro kv dl ⟨sel, s, buf', e1, e2, rfl, e4, e5, _⟩
    simp
  have hst1 : st.1.clients = w.clients := by rw [a1]
  have hst2 : st.1.views = w.views := by rw [a1]
  rw [hnames] at h2
  obtain ⟨b1, b2, b3, b4, b5, x', m', b6, b7, b8, b9, b10, b11⟩ := World.clampAll_ok hone.1 h2 (x := ctx) (m := m)
    (by rw [hst1]; exact hc) hm
  have hw' : w'.clients = w2.clients ∧ w'.views = w2.views ∧ w'.buffers = w2.buffers ∧ r = st.2.1 := by
    split at hd
    · obtain ⟨w3, h3, hd⟩ := bind_inv hd
      cases hd
      obtain ⟨ps, _, rfl⟩ := World.notify_ok h3
      exact ⟨rfl, rfl, rfl, rfl⟩
    · cases hd; exact ⟨rfl, rfl, rfl, rfl⟩
  obtain ⟨c1, c2, c3, c4⟩ := hw'
  have hrr : r = dls.flatten := by
    rw [c4, a3]; rfl
  have hget : ∀ b, m.get b = none ↔ b ∉ Assoc.keys m := by
    intro b
    rw [Assoc.mem_keys, ← Assoc.has_false]
    cases Assoc.has m b <;> simp
  refine ⟨by rw [c2, b2, hst2], ?_, ?_, ?_, x', m', by rw [c1]; exact b6, b7, b8, b9, ?_, ?_⟩
  · intro d hd'
    rw [c1, b5 d hd', hst1]
  · intro b hb
    rw [c3, b1, a2 b ((hget b).1 hb)]
  · rw [hrr, c3, b1]; exact hr
  · intro b hb
    rw [b10 b ((hget b).1 hb)]; exact hb
  · intro b sel s hb hp
    have hmem : b ∈ Assoc.keys m := by
      rw [Assoc.mem_keys]; exact Assoc.has_iff.2 ⟨_, hb⟩
    obtain ⟨buf, n, l, e1, e2, e3, e4⟩ := b11 b hmem
    rw [hb] at e3
    cases e3
    obtain ⟨dl, _, sel', s', buf', q1, q2, q3, q4, q5, q6⟩ := forall2_mem hall (Assoc.get_mem hb)
    have q1 : [sel] = [sel'] := q1
    cases q1
    have hss : s' = s := by
      obtain ⟨p1, p2, p3, _⟩ := q2
      obtain ⟨p1', p2', p3', _⟩ := hp
      have p2 : w.buffers.get b = some p1 := p2
      rw [p2'] at p2
      cases p2
      exact shows_unique (forward_any (World.texts_history h b p1 p2')) p3 p3'
    subst hss
    have q4 : st.1.buffers.get b = some buf' := q4
    rw [q4] at e1
    cases e1
    have hw := (reachable_ready (forward_any q6)).wf
    have hne : remaining s' sel ≠ [] := by
      unfold remaining
      split
      · simp
      · rename_i hx
        obtain ⟨_, _, _, _, _, hwi⟩ := hp
        obtain ⟨h1, h2⟩ := hwi sel (by simp)
        intro e
        unfold cut at e
        rw [List.append_eq_nil_iff, List.take_eq_nil_iff, List.drop_eq_nil_iff] at e
        obtain ⟨e1 | e1, e2⟩ := e
        · apply hx; unfold lo hi at *; omega
        · subst e1; simp at h1
    have hlen : n = (remaining s' sel).length - 1 := by
      have hcontent := (shows_iff hw).1 q5
      have := PieceTable.maxOffset_eq hw
      rw [hcontent] at this
      rw [e2] at this
      injection this
    rw [e4, hlen]; rfl

/-- C22: deleting the selections returns the selected texts and removes exactly them, in the buffers the client has
selections in; a buffer is left with a newline if nothing remains; no other buffer, client or view changes. -/
theorem C22_delete {w w' : World} (h : CoreHistory CleanName w) {env : Env} (hf : ∀ i, (env.stale i).follows = true)
    (hseg : IsSegmentation env.seg) {c : Nat} {ctx : ClientContext} {m : Assoc Str (List Selection)}
    (hc : w.clients.map.get c = some ctx) (hm : ctx.selections.get ctx.view.key = some m)
    (hin : ∀ b l, m.get b = some l → ∃ s, Plain w b l s) {r : List Bytes} (hd : w.deleteSelection env c = .ok (w', r)) :
    w'.views = w.views ∧ (∀ d, d ≠ c → w'.clients.map.get d = w.clients.map.get d) ∧
    (∀ b, m.get b = none → w'.buffers.get b = w.buffers.get b) ∧
    List.Forall₂ (fun kv text => ∃ sel s buf', kv.2 = [sel] ∧ Plain w kv.1 [sel] s ∧ text = selectedText s sel ∧
      w'.buffers.get kv.1 = some buf' ∧ Shows buf'.content (remaining s sel)) m r := by
  obtain ⟨h1, h2, h3, h4, _⟩ := delete_spec h hf hseg hc hm hin hd
  exact ⟨h1, h2, h3, h4⟩

example : (wD.deleteSelection envA 1).toOption.map (fun r => r.2) = some [[50, 51], [97, 10]] := by decide +kernel
example : ∀ w' r, wD.deleteSelection envA 1 = .ok (w', r) → w'.views = wD.views := by
  intro w' r h
  obtain ⟨ctx, h1, h2⟩ := wD_client
  exact (C22_delete wD_history (fun _ => rfl) bytewise_ok h1 h2 wD_plain h).1

/-! ## C23 -/

theorem remaining_length {s : Bytes} {sel : Selection} (h : Within s sel) :
    (remaining s sel).length = if lo sel = 0 ∧ hi sel + 1 = s.length then 1 else s.length - (hi sel + 1 - lo sel) := by
  obtain ⟨h1, h2⟩ := h
  unfold remaining
  split
  · rfl
  · unfold cut
    simp only [List.length_append, List.length_take, List.length_drop]
    unfold lo hi at *
    omega

/-- clamping leaves the selection inside exactly when the deletion did not reach the end, or was of everything -/
theorem clamp_within {s : Bytes} {sel : Selection} (h : Within s sel) :
    Within (remaining s sel) (sel.clampTo ((remaining s sel).length - 1)) ↔ (hi sel + 1 < s.length ∨ lo sel = 0) := by
  have hl := remaining_length h
  obtain ⟨h1, h2⟩ := h
  unfold Within
  generalize (remaining s sel).length = n at *
  unfold Selection.clampTo Selection.last
  unfold lo hi at *
  split at hl
  · subst hl
    repeat' split
    all_goals (first | omega | (simp only; omega))
  · repeat' split
    all_goals (first | omega | (simp only; omega))

/-- C23: after a deletion the selection of the client is inside the remaining text exactly when the deletion did not
reach the end of the text, or took all of it. -/
theorem C23_delete {w w' : World} (h : CoreHistory CleanName w) {env : Env} (hf : ∀ i, (env.stale i).follows = true)
    (hseg : IsSegmentation env.seg) {c : Nat} {ctx : ClientContext} {m : Assoc Str (List Selection)}
    (hc : w.clients.map.get c = some ctx) (hm : ctx.selections.get ctx.view.key = some m)
    (hin : ∀ b l, m.get b = some l → ∃ s, Plain w b l s) {r : List Bytes} (hd : w.deleteSelection env c = .ok (w', r))
    {b : Str} {sel : Selection} {s : Bytes} (hb : m.get b = some [sel]) (hp : Plain w b [sel] s) :
    ∃ x' m' sel', w'.clients.map.get c = some x' ∧ x'.view = ctx.view ∧ x'.selections.get x'.view.key = some m' ∧
      m'.get b = some [sel'] ∧ (Within (remaining s sel) sel' ↔ (hi sel + 1 < s.length ∨ lo sel = 0)) := by
  obtain ⟨_, _, _, _, x', m', h1, h2, h3, _, _, h4⟩ := delete_spec h hf hseg hc hm hin hd
  refine ⟨x', m', _, h1, h2, by rw [h2]; exact h3, h4 b sel s hb hp, ?_⟩
  obtain ⟨_, _, _, _, _, hw⟩ := hp
  exact clamp_within (hw sel (by simp))

/-- C23 is false of the code: in `12345`, the last three characters (and the newline) being selected, deleting them leaves
the anchor past the end. -/
theorem C23_delete_refuted :
    let w := final (session [.join 1 [], .edit 1 ['f'] false, .move 1 .right false, .move 1 .right false, .move 1 .end true])
    let r := w.deleteSelection envA 1
    (r.toOption.map fun r => (r.1.buffers.get ['f']).map fun b => b.content.text) = some (some (.ok [49, 50])) ∧
    sees (r.map Prod.fst) 1 ['f'] = some (str!"f{*}", some [⟨2, 1, 6⟩]) := by decide +kernel

/-- C23 is false of other clients: client 1 has its cursor on the newline, client 2 deletes the first character. -/
theorem C23_others_refuted :
    let w := final (session [.join 1 [], .edit 1 ['f'] false, .join 2 [], .move 1 .end false])
    let r := w.deleteSelection envA 2
    (r.toOption.map fun r => (r.1.buffers.get ['f']).map fun b => b.content.text) = some (some (.ok [50, 51, 52, 53, 10])) ∧
    sees (r.map Prod.fst) 1 ['f'] = some (str!"f{*}", some [⟨5, 5, 6⟩]) := by decide +kernel

/-! ## C61 -/

/-- C61: every buffer of a running editor is the result of completed edits of the buffer interface without undo and redo,
so all that is proved of such buffers (C01-C24) holds of it; in particular its lines and text can be read. -/
theorem C61_buffers {w : World} (h : CoreHistory (fun _ _ => True) w) {n : Str} {b : Buffer} (hb : w.buffers.get n = some b) :
    ForwardHistory b.content ∧ ∃ s, Shows b.content s := by
  have hf := World.texts_history h n b hb
  exact ⟨hf, _, (shows_iff (reachable_ready (forward_any hf)).wf).2 rfl⟩

/-- C61: buffers are not left empty by deletions (C22), but they are by reloading: when the file `f` (`12345`, newline)
becomes the single letter `c`, reopening it shows an empty buffer, not `c`. -/
theorem C61_empty_refuted :
    let env := { envA with fs := fun _ => some ⟨[99], 9⟩ }
    let w := final ((session [.join 1 [], .edit 1 ['f'] false]).bind fun w => w.edit env 1 ['f'] false)
    (w.buffers.get ['f']).map (fun b => b.content.text) = some (.ok []) := by decide +kernel

end Ced.Props

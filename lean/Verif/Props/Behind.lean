import Verif.Props.MotionAny
import Verif.Props.CoreDelete

/-!
# Deleting selections that are not what they seem (C22, C87)

Selections left behind the end of the text (C23), and selections of characters of more than one byte.
-/

namespace Ced.Props
open Spec PieceTable

/-- what deleting does, by the range of the selection -/
theorem delete_by_range {env : Env} (hf : ∀ i, (env.stale i).follows = true) {b : Buffer} {s : Bytes} {sel : Selection}
    {a e : Nat} (h : ForwardHistory b.content) (hs : Shows b.content s) (hne : s ≠ [])
    (hr : selectionRange env.seg b.content sel = .ok (a, e)) :
    (s.length ≤ a → World.deleteInBuffer env b [sel] = .ok (b, [])) ∧
    (e < a → a < s.length → ∃ x, World.deleteInBuffer env b [sel] = .error x) ∧
    (e = a → a < s.length → (∃ b', World.deleteInBuffer env b [sel] = .ok (b', [[]]) ∧ Shows b'.content s) ∨
      ∃ x, World.deleteInBuffer env b [sel] = .error x) := by
  have hw := (reachable_ready (forward_any h)).wf
  have hc := (shows_iff hw).1 hs
  subst hc
  have hem : b.content.isEmpty = false := by
    cases hx : b.content.isEmpty with
    | false => rfl
    | true => exact absurd ((PieceTable.isEmpty_iff hw).1 hx) hne
  unfold World.deleteInBuffer World.deleteOne
  simp only [List.foldlM_cons, List.foldlM_nil]
  rw [hr]
  simp only [except_bind_ok]
  refine ⟨fun hla => ?_, fun hea hla => ?_, fun hea hla => ?_⟩
  · have ht : b.content.textRange a e = .ok none := by
      unfold textRange
      rcases Nat.lt_or_ge e a with h' | h'
      · rw [(range_reversed hw h').1 hla]; rfl
      · rw [range_eq hw h', if_neg (by omega)]; rfl
    rw [ht]
    simp only [except_bind_ok, except_pure, hem]
    rfl
  · unfold textRange
    rcases (range_reversed hw hea).2 hla with e1 | e1
    · rw [e1]
      have : ∀ t, World.deleteRange env t a e = .error .index := fun t => by unfold World.deleteRange; rw [if_pos hea]
      simp only [except_bind_ok, except_pure, Option.map_some, this]
      exact ⟨_, rfl⟩
    · rw [e1]; exact ⟨_, rfl⟩
  · subst hea
    have ht : b.content.textRange e e = .ok (some []) := by
      unfold textRange
      rw [range_eq hw (Nat.le_refl _), if_pos hla]
      have : slice b.content.content e e = [] := by unfold slice; simp
      rw [this]
      rfl
    rw [ht]
    have hd : World.deleteRange env b.content e e = b.content.delete (env.stale 0) e 0 := by
      unfold World.deleteRange
      rw [if_neg (by omega), Nat.sub_self]
    simp only [except_bind_ok, hd]
    rcases C02_delete (forward_any h) hs (hf 0) e 0 with ⟨t', e1, e2⟩ | ⟨x, e1, _⟩
    · left
      rw [e1]
      have hcut : cut b.content.content e 0 = b.content.content := by unfold cut; simp
      rw [hcut] at e2
      have hft := World.forward_delete h (hf 0) e1
      have hw' := (reachable_ready (forward_any hft)).wf
      have hem' : t'.isEmpty = false := by
        cases hx : t'.isEmpty with
        | false => rfl
        | true =>
          have := (PieceTable.isEmpty_iff hw').1 hx
          rw [(shows_iff hw').1 e2] at this
          exact absurd this hne
      simp only [except_bind_ok, except_pure, hem', List.nil_append]
      exact ⟨_, rfl, e2⟩
    · right
      rw [e1]; exact ⟨_, rfl⟩

/-- the range of a selection whose last end is behind the text -/
theorem range_behind {t : PieceTable} (h : SteadyHistory t) {s : Bytes} (hs : Shows t s) (ha : Ascii s)
    (he : EndsWithNewline s) (h2 : 2 ≤ s.length) {seg : Segmentation} (hseg : IsSegmentation seg) {sel : Selection}
    (hb : s.length ≤ hi sel) : selectionRange seg t sel = .ok (lo sel, 1) := by
  have hw := (reachable_ready (steady_any h)).wf
  have hn := steady_newlines h
  have hc := (shows_iff hw).1 hs
  subst hc
  have hf : sel.first = lo sel := by unfold Selection.first lo; split <;> omega
  have hla : sel.last = hi sel := by unfold Selection.last hi; split <;> omega
  unfold selectionRange
  rw [maxOffset_eq hw, hla, hf]
  simp only [except_bind_ok]
  rw [if_neg (by omega), offsetToCoord_past hw hb (by omega)]
  simp only [except_bind_ok]
  obtain ⟨n, c, hat⟩ := at_exists (s := t.content) (o := 0) (by omega)
  have h11 : n = 1 ∧ c = 1 := by
    have e1 := offsetToCoord_ascii hw hn hseg ha (by omega) hat
    have e2 : t.offsetToCoord seg 0 = .ok (some ⟨1, 1⟩) := rfl
    rw [e2] at e1
    simpa using e1.symm
  obtain ⟨rfl, rfl⟩ := h11
  have hnav : Navigator.navigate seg t none = .ok (some ⟨⟨1, 1⟩, 1⟩) := by
    have := Navigator.navigate_ascii hw hn hseg ha hat
    unfold Navigator.navigate at this ⊢
    dsimp only at this ⊢
    unfold Navigator.new Navigator.BEGIN
    rw [this]
    rfl
  rw [hnav]
  simp only [except_bind_ok, unwrapR]
  obtain ⟨n', c', hat', e⟩ := Navigator.next_ascii hw hn hseg ha hat (by omega) 1
  rw [e]
  simp only [except_bind_ok]
  obtain ⟨p, e2, hp⟩ := Navigator.pos_ascii (c := c') hw hn hseg ha he (Navigator.lands_of_at hat')
  rw [e2]
  simp only [except_bind_ok, except_pure, hp]

/-- C22, violated for a selection whose last end was left behind the end of the text (C23): deleting it deletes the
first character of the text if the selection begins there; does nothing if the whole selection is behind; deletes
nothing or crashes if it begins at the second character, and crashes if it begins further on. -/
theorem C22_behind_refuted {env : Env} (hf : ∀ i, (env.stale i).follows = true) (hseg : IsSegmentation env.seg)
    {b : Buffer} {s : Bytes} {sel : Selection} (h : ForwardHistory b.content) (hs : Shows b.content s) (ha : Ascii s)
    (he : EndsWithNewline s) (h2 : 2 ≤ s.length) (hb : s.length ≤ hi sel) :
    (lo sel = 0 → ∃ b', World.deleteInBuffer env b [sel] = .ok (b', [s.take 1]) ∧ Shows b'.content (s.drop 1)) ∧
    (lo sel = 1 → (∃ b', World.deleteInBuffer env b [sel] = .ok (b', [[]]) ∧ Shows b'.content s) ∨
      ∃ x, World.deleteInBuffer env b [sel] = .error x) ∧
    (2 ≤ lo sel → lo sel < s.length → ∃ x, World.deleteInBuffer env b [sel] = .error x) ∧
    (s.length ≤ lo sel → World.deleteInBuffer env b [sel] = .ok (b, [])) := by
  have hr := range_behind (forward_steady h) hs ha he h2 hseg hb
  have hne : s ≠ [] := by intro e; rw [e] at h2; simp at h2
  obtain ⟨k1, k2, k3⟩ := delete_by_range hf h hs hne hr
  refine ⟨fun h0 => ?_, fun h1 => k3 h1.symm (by omega), fun h3 h4 => k2 (by omega) h4, k1⟩
  have hr0 : selectionRange env.seg b.content ⟨0, 0, 1⟩ = .ok (0, 1) :=
    (C21_selection (forward_steady h) hs ha he hseg (sel := ⟨0, 0, 1⟩) (by dsimp only; omega) (by dsimp only; omega)).1
  have hsame : World.deleteInBuffer env b [sel] = World.deleteInBuffer env b [⟨0, 0, 1⟩] := by
    unfold World.deleteInBuffer World.deleteOne
    simp only [List.foldlM_cons, List.foldlM_nil]
    rw [hr, hr0, h0]
  have hdel : ∃ r, World.deleteInBuffer env b [⟨0, 0, 1⟩] = .ok r := by
    obtain ⟨_, e2⟩ := C21_selection (forward_steady h) hs ha he hseg (sel := ⟨0, 0, 1⟩) (by dsimp only; omega) (by dsimp only; omega)
    obtain ⟨t', e, _⟩ := C02_delete_inside (forward_any h) hs (hf 0) (a := 0) (n := 1) (by omega) (by omega)
    have e4 : World.deleteRange env b.content 0 1 = .ok t' := by
      unfold World.deleteRange; rw [if_neg (by omega)]; exact e
    unfold World.deleteInBuffer World.deleteOne
    simp only [List.foldlM_cons, List.foldlM_nil]
    rw [hr0]
    simp only [Nat.min_self, Nat.max_self, Nat.zero_add] at e2
    simp only [except_bind_ok, e2, e4]
    exact ⟨_, rfl⟩
  obtain ⟨⟨b', dl⟩, hd⟩ := hdel
  obtain ⟨rfl, d2, _⟩ := deleteInBuffer_one hf hseg h hs ha he ⟨by dsimp only; omega, by dsimp only; omega⟩ hd
  refine ⟨b', ?_, ?_⟩
  · rw [hsame, hd]
    unfold selectedText slice lo hi
    simp
  · have : remaining s ⟨0, 0, 1⟩ = s.drop 1 := by
      unfold remaining lo hi cut
      rw [if_neg (by simp; omega)]
      simp
    rw [← this]; exact d2

/-- C87, violated: on a line after the first, deleting a selection of one character of more than one byte (not the last
of the text) does not delete it: the text stays as it was, or the editor crashes.  If the selection is inside this
character it always crashes. -/
theorem C87_delete_refuted {env : Env} (hf : ∀ i, (env.stale i).follows = true) (hseg : IsSegmentation env.seg)
    {b : Buffer} {s : Bytes} (h : ForwardHistory b.content) (hs : Shows b.content s)
    {n : Nat} {pre line suf : Bytes} (hl : LineAt s n pre line suf)
    (h1 : 1 < n) {before after : List Bytes} {g : Bytes} (hg : env.seg line = before ++ g :: after) (h2 : 2 ≤ g.length)
    (hmore : after.flatten ++ suf ≠ []) {sel : Selection} {k : Nat} (hk : k < g.length)
    (hc : sel.cursor = pre.length + before.flatten.length + k) (ha : sel.anchor = sel.cursor) :
    ((∃ b', k = 0 ∧ World.deleteInBuffer env b [sel] = .ok (b', [[]]) ∧ Shows b'.content s) ∨
      ∃ x, World.deleteInBuffer env b [sel] = .error x) := by
  have hlen := hl.length
  have hb := congrArg List.length (cluster_bytes hseg hg)
  simp only [List.length_append] at hb
  have hst := C87_right_stuck_refuted (forward_steady h) hs hseg hl h1 hg h2 hmore
    (sel := ⟨0, sel.cursor, before.length + 1⟩) hk hc true
  have hpre : 0 < pre.length := List.length_pos_iff.2 fun e => by have := hl.pre_eq_nil.1 e; omega
  have hm := List.length_pos_iff.2 hmore
  simp only [List.length_append] at hm
  rw [C87_motion (forward_steady h) hs hseg (by dsimp only; omega) (by omega)] at hst
  obtain ⟨n', w, o, hd, hlo, hlt, e⟩ := hst
  simp only [Selection.mk.injEq, if_true] at e
  obtain ⟨_, rfl, rfl⟩ := e
  have hr : selectionRange env.seg b.content sel = .ok (sel.cursor, pre.length + before.flatten.length) := by
    rw [C87_selected (forward_steady h) hs hseg (by omega) (by omega), ha, Nat.min_self, Nat.max_self]
    refine ⟨rfl, .inr ⟨by omega, before.length + 1, n, n', before.length + 1, ?_, hd, hlo, by omega⟩⟩
    rw [hc]
    exact ⟨pre, line, suf, hl, .inr (.inr ⟨by omega, before, g, after, k, hg, hk, rfl, rfl⟩)⟩
  obtain ⟨_, k2, k3⟩ := delete_by_range hf h hs hl.ne_nil hr
  by_cases h0 : k = 0
  · rcases k3 (by omega) (by omega) with ⟨b', x, y⟩ | x
    · exact .inl ⟨b', h0, x, y⟩
    · exact .inr x
  · exact .inr (k2 (by omega) (by omega))

/-! ## Cases -/

/-- C22, violated in a session: client 1 selects from the third character of `12345` to the end, client 2 deletes the
first character, and then client 1 crashes the editor by deleting its selection. -/
theorem C22_session_refuted :
    let w := final (session [.join 1 [], .edit 1 ['f'] false, .join 2 [], .move 1 .right false, .move 1 .right false,
      .move 1 .end true, .deleteSelection 2])
    sees (.ok w) 1 ['f'] = some (str!"f{*}", some [⟨2, 5, 6⟩]) ∧
    (w.buffers.get ['f']).map (fun b => b.content.text) = some (.ok [50, 51, 52, 53, 10]) ∧
    (w.deleteSelection envA 1).toOption = none := by decide +kernel

/-- The same with the selection beginning at the first character: the first character left is deleted, not the rest. -/
example :
    let w := final (session [.join 1 [], .edit 1 ['f'] false, .join 2 [], .move 1 .end true, .deleteSelection 2])
    sees (.ok w) 1 ['f'] = some (str!"f{*}", some [⟨0, 5, 6⟩]) ∧
    (w.deleteSelection envA 1).toOption.map (fun r => (r.2, (r.1.buffers.get ['f']).map fun b => b.content.text)) =
      some ([[50]], some (.ok [51, 52, 53, 10])) := by decide +kernel

/-- `"ab\n\nc\n"`, selected from its fifth character to an offset behind its end. -/
example : ∃ x, World.deleteInBuffer envA ⟨.scratch ['x'], TA, none, false⟩ [⟨4, 9, 1⟩] = .error x :=
  (C22_behind_refuted (env := envA) (fun _ => rfl) bytewise_ok (b := ⟨.scratch ['x'], TA, none, false⟩) TA_forward TA_shows textA_ascii textA_ends (by decide)
    (sel := ⟨4, 9, 1⟩) (by decide)).2.2.1 (by decide) (by decide)

/-- `"a\nbé\n"`, with `é` selected. -/
example : (∃ b', 0 = 0 ∧ World.deleteInBuffer { envA with seg := clusters } ⟨.scratch ['x'], TEL, none, false⟩ [⟨3, 3, 2⟩] = .ok (b', [[]]) ∧
      Shows b'.content [97, 10, 98, 195, 169, 10]) ∨
    ∃ x, World.deleteInBuffer { envA with seg := clusters } ⟨.scratch ['x'], TEL, none, false⟩ [⟨3, 3, 2⟩] = .error x :=
  C87_delete_refuted (env := { envA with seg := clusters }) (fun _ => rfl) clusters_ok (b := ⟨.scratch ['x'], TEL, none, false⟩) TEL_forward TEL_shows
    TEL_line (by omega) TEL_clusters (by decide) (by decide) (sel := ⟨3, 3, 2⟩) (k := 0) (by decide) rfl rfl

end Ced.Props

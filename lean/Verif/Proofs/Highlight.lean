import Verif.Model.View
import Verif.Proofs.Motion
import Verif.Proofs.Assoc

/-! # Highlighted ranges -/

namespace Ced
open Spec

/-- the position after a coordinate, in reading order -/
def Before (n c n' c' : Nat) : Prop := n < n' ∨ (n = n' ∧ c < c')

theorem lineAt_lt {s pre line suf pre' line' suf' : Bytes} {n n' : Nat} (hl : LineAt s n pre line suf)
    (hl' : LineAt s n' pre' line' suf') (hlt : n < n') : pre.length + line.length < pre'.length := by
  obtain ⟨g1, g2⟩ := hl'.pre_last (by have := hl.pos; omega)
  by_cases hsuf : suf = []
  · exfalso
    have h1 := hl.newlines
    rw [hsuf] at h1
    have hcnt := hl.count
    have : (newlinePositions s).length = n - 1 := by rw [h1]; simp [newlinePositions_nil, hcnt]
    rw [List.getElem?_eq_none (by omega)] at g1; cases g1
  · have h1 := hl.suf_head hsuf
    rcases Nat.lt_or_ge (n - 1) (n' - 2) with hh | hh
    · have := newline_mono hh h1 g1
      omega
    · have e : n - 1 = n' - 2 := by have := hl.pos; omega
      rw [e, g1] at h1
      simp at h1; omega

theorem at_order {s : Bytes} {o n c o' n' c' : Nat} (h : At s o n c) (h' : At s o' n' c') :
    o < o' ↔ Before n c n' c' := by
  have h0 := h
  have h0' := h'
  obtain ⟨pre, line, suf, hl, h1, h2, h3⟩ := h
  obtain ⟨pre', line', suf', hl', h1', h2', h3'⟩ := h'
  unfold Before
  rcases Nat.lt_trichotomy n n' with hn | hn | hn
  · have := lineAt_lt hl hl' hn; omega
  · subst hn
    obtain ⟨e1, e2, e3⟩ := hl.unique hl'
    subst e1; omega
  · have := lineAt_lt hl' hl hn; omega

/-- membership in the range a piece of a selection covers on a line of `n` cells -/
def Covers (rs : List (Nat × (Option Nat × Option Nat))) (n i k : Nat) : Prop :=
  ∃ r ∈ rs, r.1 = i ∧ (decoRange n r.2).1 ≤ k ∧ k < (decoRange n r.2).2

theorem mapM_ok {α β : Type} {f : α → R β} {g : α → β} {l : List α} (h : ∀ x ∈ l, f x = .ok (g x)) :
    l.mapM f = .ok (l.map g) := by
  induction l with
  | nil => rfl
  | cons x l ih =>
    rw [List.mapM_cons, h x (by simp), ih (fun y hy => h y (by simp [hy]))]
    rfl

/-- the piece of the selection on line `i` -/
def lineRange (a b : Coords) (i : Nat) : Nat × (Option Nat × Option Nat) :=
  (i - 1, if i = a.l then (some (a.c - 1), none) else if i = b.l then (none, some (b.c - 1)) else (none, none))

theorem selectedRanges_ok {a b : Coords} (hal : 1 ≤ a.l) (hac : 1 ≤ a.c) (hbc : 1 ≤ b.c)
    (hlex : Before a.l a.c b.l b.c) :
    ∃ rs, selectedRanges a b = .ok rs ∧ ∀ n i k, (i + 1 = b.l → b.c - 1 ≤ n) →
      (Covers rs n i k ↔ k < n ∧ ¬ Before (i + 1) (k + 1) a.l a.c ∧ Before (i + 1) (k + 1) b.l b.c) := by
  unfold selectedRanges
  by_cases h1 : a.l = b.l
  · rw [if_pos h1, subChecked_ok hac, subChecked_ok hbc, subChecked_ok hal]
    refine ⟨_, rfl, ?_⟩
    intro n i k hb
    unfold Covers Before at *
    simp only [List.mem_singleton, exists_eq_left, decoRange]
    omega
  · have hlt : a.l < b.l := by unfold Before at hlex; omega
    rw [if_neg h1, subChecked_ok (show 1 ≤ b.l by omega)]
    simp only [except_bind_ok]
    by_cases h2 : a.l = b.l - 1 ∧ b.c = 1
    · rw [if_pos h2, subChecked_ok hac, subChecked_ok hal]
      refine ⟨_, rfl, ?_⟩
      intro n i k hb
      unfold Covers Before at *
      simp only [List.mem_singleton, exists_eq_left, decoRange]
      omega
    · rw [if_neg h2]
      refine ⟨(List.range' a.l (b.l + 1 - a.l)).map (lineRange a b), mapM_ok ?_, ?_⟩
      · intro i hi
        rw [List.mem_range'_1] at hi
        unfold lineRange
        rw [subChecked_ok hac, subChecked_ok hbc, subChecked_ok (show 1 ≤ i by omega)]
        by_cases e1 : i = a.l
        · simp [e1]
        · by_cases e2 : i = b.l
          · simp [e2, Ne.symm h1]
          · simp [e1, e2]
      · intro n i k hb
        unfold Covers
        simp only [List.mem_map, List.mem_range'_1]
        constructor
        · rintro ⟨r, ⟨j, hj, rfl⟩, e, hk1, hk2⟩
          unfold lineRange at e hk1 hk2
          simp only at e hk1 hk2
          by_cases e1 : j = a.l
          · rw [if_pos e1] at hk1 hk2
            simp only [decoRange] at hk1 hk2
            unfold Before; omega
          · rw [if_neg e1] at hk1 hk2
            by_cases e2 : j = b.l
            · rw [if_pos e2] at hk1 hk2
              simp only [decoRange] at hk1 hk2
              have := hb (by omega)
              unfold Before; omega
            · rw [if_neg e2] at hk1 hk2
              simp only [decoRange] at hk1 hk2
              unfold Before; omega
        · rintro ⟨hk, hna, hbb⟩
          refine ⟨lineRange a b (i + 1), ⟨i + 1, ?_, rfl⟩, by simp [lineRange], ?_⟩
          · unfold Before at hna hbb; omega
          · unfold lineRange Before at *
            simp only
            by_cases e1 : i + 1 = a.l
            · rw [if_pos e1]; simp only [decoRange]; omega
            · rw [if_neg e1]
              by_cases e2 : i + 1 = b.l
              · rw [if_pos e2]; simp only [decoRange]; omega
              · rw [if_neg e2]; simp only [decoRange]; omega

namespace Navigator
variable {t : PieceTable} {seg : Segmentation} {o n c : Nat}

theorem pos_coords (hw : t.WF) (hn : t.NewlinesOk) (hseg : IsSegmentation seg) (ha : Ascii t.content)
    (he : EndsWithNewline t.content) (h : At t.content o n c) :
    ∃ p : Position, Navigator.pos seg t ⟨⟨n, c⟩, c⟩ = .ok p ∧ p.coords = ⟨n, c⟩ := by
  have h0 := h
  obtain ⟨pre, line, suf, hl, h1, h2, h3⟩ := h
  unfold Navigator.pos
  simp only [PieceTable.lineBytes_at hw hn hl, except_bind_ok]
  rw [seg_line hseg hl ha]
  have hm : min (List.length (List.map (fun b => [b]) line) + 1) c = c := by
    rw [List.length_map]; omega
  rw [hm]
  simp only [PieceTable.coordToOffset_ascii hw hn hseg ha h0, except_bind_ok,
    PieceTable.charAt_ascii hw hn hseg ha (at_lt he h0) h0]
  exact ⟨_, rfl, rfl⟩

end Navigator

/-- the two ends of a selection -/
theorem selectionEnds_ascii {t : PieceTable} (hw : t.WF) (hn : t.NewlinesOk) {seg : Segmentation}
    (hseg : IsSegmentation seg) (ha : Ascii t.content) (he : EndsWithNewline t.content) {sel : Selection}
    (h1 : sel.anchor < t.content.length) (h2 : sel.cursor < t.content.length) :
    ∃ a b, selectionEnds seg t sel = .ok (a, b) ∧ At t.content sel.first a.l a.c ∧ 1 ≤ b.c ∧
      (∀ pre line suf, LineAt t.content b.l pre line suf → b.c ≤ line.length + 2) ∧
      (∀ o n c, At t.content o n c → (o ≤ sel.last ↔ Before n c b.l b.c)) := by
  have hf : sel.first < t.content.length := by unfold Selection.first; split <;> omega
  have hla : sel.last < t.content.length := by unfold Selection.last; split <;> omega
  obtain ⟨n1, c1, hat1⟩ := at_exists hf
  obtain ⟨n2, c2, hat2⟩ := at_exists hla
  unfold selectionEnds
  rw [PieceTable.offsetToCoord_ascii hw hn hseg ha hf hat1]
  simp only [except_bind_ok, unwrapR, PieceTable.maxOffset_eq hw]
  split
  · rename_i hm
    rw [PieceTable.offsetToCoord_ascii hw hn hseg ha hla hat2]
    refine ⟨_, _, rfl, hat1, by simp, ?_, ?_⟩
    · intro pre line suf hl
      obtain ⟨pre', line', suf', hl', g1, g2, g3⟩ := hat2
      obtain ⟨e1, e2, e3⟩ := hl'.unique hl
      subst e2; simp; omega
    · intro o n c hat
      have := at_order hat2 hat
      have hc : 1 ≤ c2 := by obtain ⟨_, _, _, _, h, _⟩ := hat2; exact h
      unfold Before at *
      simp only
      omega
  · rename_i hm
    rw [PieceTable.offsetToCoord_ascii hw hn hseg ha hla hat2]
    simp only [except_bind_ok]
    rw [Navigator.navigate_ascii hw hn hseg ha hat2]
    simp only [except_bind_ok]
    obtain ⟨n', c', hat', e⟩ := Navigator.next_ascii hw hn hseg ha hat2 (by omega) c2
    rw [e]
    simp only [except_bind_ok]
    obtain ⟨p, e2, hp⟩ := Navigator.pos_coords hw hn hseg ha he hat'
    rw [e2]
    simp only [except_bind_ok]
    refine ⟨⟨n1, c1⟩, p.coords, rfl, hat1, ?_, ?_, ?_⟩
    · rw [hp]; obtain ⟨_, _, _, _, h, _⟩ := hat'; exact h
    · intro pre line suf hl
      rw [hp] at hl ⊢
      obtain ⟨pre', line', suf', hl', g1, g2, g3⟩ := hat'
      obtain ⟨e1, e2, e3⟩ := hl'.unique hl
      subst e2; simp; omega
    · intro o n c hat
      rw [hp, ← at_order hat hat']
      omega

end Ced

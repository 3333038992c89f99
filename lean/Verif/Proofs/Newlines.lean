import Verif.Proofs.PieceTable

/-! Auxiliary lemmas: sorted sets of numbers and newline positions. -/

namespace Ced
open Spec

/-- strictly increasing -/
def Sorted (l : List Nat) : Prop := l.Pairwise (· < ·)

theorem sorted_ext {l m : List Nat} (hl : Sorted l) (hm : Sorted m) (h : ∀ x, x ∈ l ↔ x ∈ m) : l = m := by
  induction l generalizing m with
  | nil =>
    cases m with
    | nil => rfl
    | cons y ys => exact absurd ((h y).2 (by simp)) (by simp)
  | cons x xs ih =>
    cases m with
    | nil => exact absurd ((h x).1 (by simp)) (by simp)
    | cons y ys =>
      have hl' := List.pairwise_cons.1 hl
      have hm' := List.pairwise_cons.1 hm
      have exy : x = y := by
        rcases List.mem_cons.1 ((h x).1 (by simp)) with e | hx
        · exact e
        · rcases List.mem_cons.1 ((h y).2 (by simp)) with e | hy
          · exact e.symm
          · have := hm'.1 x hx; have := hl'.1 y hy; omega
      subst exy
      congr 1
      refine ih hl'.2 hm'.2 fun z => ?_
      constructor
      · intro hz
        rcases List.mem_cons.1 ((h z).1 (by simp [hz])) with e | hz'
        · have := hl'.1 z hz; omega
        · exact hz'
      · intro hz
        rcases List.mem_cons.1 ((h z).2 (by simp [hz])) with e | hz'
        · have := hm'.1 z hz; omega
        · exact hz'

theorem mem_setInsert {n x : Nat} {s : List Nat} : x ∈ setInsert n s ↔ x = n ∨ x ∈ s := by
  induction s with
  | nil => simp [setInsert]
  | cons m ms ih =>
    simp only [setInsert]
    split
    · simp
    · split
      · simp_all
      · simp only [List.mem_cons, ih]
        constructor <;> (intro h; rcases h with h | h | h <;> simp [h])

theorem sorted_setInsert {n : Nat} {s : List Nat} (h : Sorted s) : Sorted (setInsert n s) := by
  induction s with
  | nil => simp [setInsert, Sorted]
  | cons m ms ih =>
    have h' := List.pairwise_cons.1 h
    simp only [setInsert]
    split
    · rename_i hlt
      refine List.pairwise_cons.2 ⟨?_, h⟩
      intro x hx
      rcases List.mem_cons.1 hx with rfl | hx
      · exact hlt
      · have := h'.1 x hx; omega
    · split
      · exact h
      · refine List.pairwise_cons.2 ⟨?_, ih h'.2⟩
        intro x hx
        rcases mem_setInsert.1 hx with rfl | hx
        · omega
        · exact h'.1 x hx

theorem mem_setExtend {x : Nat} {s ns : List Nat} : x ∈ setExtend s ns ↔ x ∈ s ∨ x ∈ ns := by
  induction ns generalizing s with
  | nil => simp [setExtend]
  | cons n ns ih =>
    have : setExtend s (n :: ns) = setExtend (setInsert n s) ns := rfl
    rw [this, ih, mem_setInsert, List.mem_cons, or_comm (a := x = n), or_assoc]

theorem sorted_setExtend {s ns : List Nat} (h : Sorted s) : Sorted (setExtend s ns) := by
  induction ns generalizing s with
  | nil => exact h
  | cons n ns ih => exact ih (sorted_setInsert h)

theorem sorted_nil : Sorted [] := List.Pairwise.nil

theorem mem_newlinePositions {s : Bytes} {i : Nat} : i ∈ newlinePositions s ↔ s[i]? = some NL := by
  simp only [newlinePositions, List.mem_filter, List.mem_range, decide_eq_true_eq]
  constructor
  · exact fun h => h.2
  · intro h
    refine ⟨?_, h⟩
    rcases Nat.lt_or_ge i s.length with hlt | hge
    · exact hlt
    · rw [List.getElem?_eq_none hge] at h; cases h

theorem sorted_newlinePositions (s : Bytes) : Sorted (newlinePositions s) :=
  List.Pairwise.filter _ List.pairwise_lt_range

theorem matchNewlines_eq (s : Bytes) : matchNewlines s = newlinePositions s := by
  unfold matchNewlines newlinePositions
  congr 1
  funext i
  cases h : s[i]? <;> simp [Bool.beq_eq_decide_eq]

theorem mem_matchNewlines {s : Bytes} {i : Nat} : i ∈ matchNewlines s ↔ s[i]? = some NL := by
  rw [matchNewlines_eq, mem_newlinePositions]

/-- newline positions of a splice -/
theorem newlines_splice {s x : Bytes} {k : Nat} (hk : k ≤ s.length) :
    setExtend (setExtend [] ((newlinePositions s).map fun i => if k ≤ i then i + x.length else i))
      ((matchNewlines x).map (· + k)) = newlinePositions (splice s k x) := by
  refine sorted_ext (sorted_setExtend (sorted_setExtend sorted_nil)) (sorted_newlinePositions _) ?_
  intro j
  simp only [mem_setExtend, List.mem_map, mem_newlinePositions, mem_matchNewlines, List.not_mem_nil,
    false_or, splice]
  have hlen : (s.take k).length = k := by simp; omega
  rw [List.append_assoc]
  constructor
  · rintro (⟨i, hi, rfl⟩ | ⟨i, hi, rfl⟩)
    · have hil : i < s.length := by
        rcases Nat.lt_or_ge i s.length with h | h
        · exact h
        · rw [List.getElem?_eq_none h] at hi; cases hi
      split
      · rename_i h
        rw [List.getElem?_append_right (by omega), List.getElem?_append_right (by omega), hlen,
          List.getElem?_drop]
        rw [← hi]; congr 1; omega
      · rename_i h
        rw [List.getElem?_append_left (by omega), List.getElem?_take, if_pos (by omega)]
        exact hi
    · have hil : i < x.length := by
        rcases Nat.lt_or_ge i x.length with h | h
        · exact h
        · rw [List.getElem?_eq_none h] at hi; cases hi
      rw [List.getElem?_append_right (by omega), List.getElem?_append_left (by omega), hlen]
      rw [← hi]; congr 1; omega
  · intro h
    by_cases h1 : j < k
    · left
      rw [List.getElem?_append_left (by omega), List.getElem?_take, if_pos h1] at h
      exact ⟨j, h, by rw [if_neg (by omega)]⟩
    · rw [List.getElem?_append_right (by omega), hlen] at h
      by_cases h2 : j - k < x.length
      · right
        rw [List.getElem?_append_left h2] at h
        exact ⟨j - k, h, by omega⟩
      · left
        rw [List.getElem?_append_right (by omega), List.getElem?_drop] at h
        refine ⟨k + (j - k - x.length), h, ?_⟩
        rw [if_pos (by omega)]; omega

theorem newlines_append {s x : Bytes} :
    setExtend (newlinePositions s) ((matchNewlines x).map (s.length + ·)) = newlinePositions (s ++ x) := by
  refine sorted_ext (sorted_setExtend (sorted_newlinePositions _)) (sorted_newlinePositions _) ?_
  intro j
  simp only [mem_setExtend, List.mem_map, mem_newlinePositions, mem_matchNewlines]
  constructor
  · rintro (hi | ⟨i, hi, rfl⟩)
    · have hil : j < s.length := by
        rcases Nat.lt_or_ge j s.length with h | h
        · exact h
        · rw [List.getElem?_eq_none h] at hi; cases hi
      rw [List.getElem?_append_left hil]; exact hi
    · rw [List.getElem?_append_right (by omega)]; rw [← hi]; congr 1; omega
  · intro h
    by_cases h1 : j < s.length
    · left; rwa [List.getElem?_append_left h1] at h
    · right
      rw [List.getElem?_append_right (by omega)] at h
      exact ⟨j - s.length, h, by omega⟩

theorem newlines_cut {s : Bytes} {k n : Nat} (hk : k ≤ s.length) :
    PieceTable.deleteNewlines (newlinePositions s) k n = newlinePositions (cut s k n) := by
  refine sorted_ext (sorted_setExtend sorted_nil) (sorted_newlinePositions _) ?_
  intro j
  have hlen : (s.take k).length = k := by simp; omega
  simp only [PieceTable.deleteNewlines, mem_setExtend, List.not_mem_nil, false_or, List.mem_filterMap,
    mem_newlinePositions, cut]
  constructor
  · rintro ⟨i, hi, he⟩
    split at he
    · cases he
    · split at he
      · simp only [Option.some.injEq] at he
        subst he
        rw [List.getElem?_append_right (by omega), hlen, List.getElem?_drop]
        rw [← hi]; congr 1; omega
      · simp only [Option.some.injEq] at he
        subst he
        rw [List.getElem?_append_left (by omega), List.getElem?_take, if_pos (by omega)]
        exact hi
  · intro h
    by_cases h1 : j < k
    · rw [List.getElem?_append_left (by omega), List.getElem?_take, if_pos h1] at h
      exact ⟨j, h, by rw [if_neg (by omega), if_neg (by omega)]⟩
    · rw [List.getElem?_append_right (by omega), hlen, List.getElem?_drop] at h
      refine ⟨k + n + (j - k), h, ?_⟩
      rw [if_neg (by omega), if_pos (by omega)]
      simp; omega

end Ced

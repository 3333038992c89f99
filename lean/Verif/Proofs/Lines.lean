import Verif.Proofs.Range

/-! Auxiliary lemmas: lines and newline positions. -/

namespace Ced
open Spec

theorem newlinePositions_nil : newlinePositions [] = [] := rfl

theorem newlinePositions_cons (b : UInt8) (s : Bytes) :
    newlinePositions (b :: s) = (if b = NL then [0] else []) ++ (newlinePositions s).map (· + 1) := by
  refine sorted_ext (sorted_newlinePositions _) ?_ ?_
  · have hm : Sorted ((newlinePositions s).map (· + 1)) := by
      have := sorted_newlinePositions s
      unfold Sorted at *
      rw [List.pairwise_map]
      exact this.imp (by intros; omega)
    split
    · refine List.pairwise_cons.2 ⟨?_, hm⟩
      intro x hx; simp at hx; obtain ⟨y, _, rfl⟩ := hx; omega
    · exact hm
  · intro x
    cases x with
    | zero =>
      rw [mem_newlinePositions]
      simp only [List.getElem?_cons_zero, Option.some.injEq, List.mem_append, List.mem_map]
      by_cases hb : b = NL <;> simp [hb]
    | succ x =>
      rw [mem_newlinePositions]
      simp only [List.getElem?_cons_succ, List.mem_append, List.mem_map]
      constructor
      · intro h; exact Or.inr ⟨x, mem_newlinePositions.2 h, rfl⟩
      · rintro (h | ⟨y, hy, e⟩)
        · split at h <;> simp at h
        · have : y = x := by omega
          subst this; exact mem_newlinePositions.1 hy

/-- where line `i` (from 0) starts, given the newline positions -/
def lineStart (nls : List Nat) : Nat → Nat
  | 0 => 0
  | i + 1 => nls[i]?.getD 0 + 1

/-- where line `i` (from 0) stops -/
def lineStop (nls : List Nat) (len i : Nat) : Nat := nls[i]?.getD len

theorem lines_eq_nil {s : Bytes} : lines s = [] ↔ s = [] := by
  cases s with
  | nil => simp [lines]
  | cons b bs =>
    simp only [lines]
    constructor
    · intro h
      split at h
      · cases h
      · split at h <;> cases h
    · intro h; cases h

theorem lines_length (s : Bytes) :
    (lines s).length = (newlinePositions s).length + (if s.getLast? = none ∨ s.getLast? = some NL then 0 else 1) := by
  induction s with
  | nil => simp [lines, newlinePositions_nil]
  | cons b bs ih =>
    rw [newlinePositions_cons]
    by_cases hb : b = NL
    · simp only [lines, hb, if_true, List.length_cons, ih]
      cases bs with
      | nil => simp [newlinePositions_nil]
      | cons c cs => rw [List.getLast?_cons_cons]; simp; omega
    · cases bs with
      | nil => simp [lines, hb, newlinePositions_nil]
      | cons c cs =>
        rw [List.getLast?_cons_cons]
        simp only [lines, hb, if_false]
        simp only [lines] at ih
        split
        · rename_i hl
          have := (lines_eq_nil (s := c :: cs)).1 (by simpa [lines] using hl)
          cases this
        · rename_i l ls hl
          rw [hl] at ih
          simp only [List.length_cons, List.nil_append, List.length_map] at ih ⊢
          exact ih

theorem slice_cons_succ (b : UInt8) (s : Bytes) (i j : Nat) : slice (b :: s) (i + 1) (j + 1) = slice s i j := by
  simp [slice]

theorem slice_cons_zero (b : UInt8) (s : Bytes) (j : Nat) : slice (b :: s) 0 (j + 1) = b :: slice s 0 j := by
  simp [slice]

theorem lines_get (s : Bytes) (i : Nat) (hi : i < (lines s).length) :
    (lines s)[i]? = some (slice s (lineStart (newlinePositions s) i)
      (lineStop (newlinePositions s) s.length i)) := by
  have hnl : ∀ (s : Bytes) (i : Nat), i + 1 < (lines s).length → ∃ v, (newlinePositions s)[i]? = some v := by
    intro s i hi
    have hl := lines_length s
    have hlt : i < (newlinePositions s).length := by
      split at hl <;> omega
    exact ⟨_, List.getElem?_eq_getElem hlt⟩
  induction s generalizing i with
  | nil => simp [lines] at hi
  | cons b bs ih =>
    rw [newlinePositions_cons]
    by_cases hb : b = NL
    · simp only [hb, lines, if_true, List.cons_append, List.nil_append] at hi ⊢
      cases i with
      | zero => simp [lineStart, lineStop, slice]
      | succ i =>
        have hi' : i < (lines bs).length := by simpa using hi
        rw [List.getElem?_cons_succ, ih i hi']
        congr 1
        rw [← slice_cons_succ NL bs]
        congr 1
        · cases i with
          | zero => simp [lineStart]
          | succ i =>
            obtain ⟨v, hv⟩ := hnl bs i hi'
            simp [lineStart, hv]
        · simp only [lineStop, List.getElem?_cons_succ, List.getElem?_map, List.length_cons]
          cases (newlinePositions bs)[i]? <;> simp
    · have hle : lines (b :: bs) = (match lines bs with | [] => [[b]] | l :: ls => (b :: l) :: ls) := by
        simp [lines, hb]; rfl
      rw [hle] at hi ⊢
      simp only [hb, if_false, List.nil_append]
      cases hl : lines bs with
      | nil =>
        have hbs := lines_eq_nil.1 hl
        subst hbs
        rw [hl] at hi
        simp only [List.length_cons, List.length_nil] at hi
        have : i = 0 := by omega
        subst this
        simp [lineStart, lineStop, slice, newlinePositions_nil]
      | cons l ls =>
        rw [hl] at hi
        have hi' : i < (lines bs).length := by rw [hl]; simpa using hi
        have := ih i hi'
        rw [hl] at this
        cases i with
        | zero =>
          simp only [List.getElem?_cons_zero, Option.some.injEq] at this ⊢
          rw [this]
          simp only [lineStart, lineStop, List.getElem?_map, List.length_cons]
          cases (newlinePositions bs)[0]? <;> simp [slice_cons_zero]
        | succ i =>
          simp only [List.getElem?_cons_succ] at this ⊢
          rw [this]
          congr 1
          obtain ⟨v, hv⟩ := hnl bs i hi'
          rw [← slice_cons_succ b bs]
          congr 1
          · simp [lineStart, hv]
          · simp only [lineStop, List.getElem?_map, List.length_cons]
            cases (newlinePositions bs)[i + 1]? <;> simp

theorem getLast?_eq_getElem? (s : Bytes) : s.getLast? = s[s.length - 1]? := by
  rw [List.getLast?_eq_getElem?]

theorem newline_lt {s : Bytes} {i v : Nat} (h : (newlinePositions s)[i]? = some v) : v < s.length := by
  have hm : v ∈ newlinePositions s := List.mem_of_getElem? h
  rw [mem_newlinePositions] at hm
  rcases Nat.lt_or_ge v s.length with h | h
  · exact h
  · rw [List.getElem?_eq_none h] at hm; cases hm

theorem newline_mono {s : Bytes} {i j v w : Nat} (hij : i < j) (h : (newlinePositions s)[i]? = some v)
    (h' : (newlinePositions s)[j]? = some w) : v < w := by
  have hs := sorted_newlinePositions s
  unfold Sorted at hs
  obtain ⟨hi, rfl⟩ := List.getElem?_eq_some_iff.1 h
  obtain ⟨hj, rfl⟩ := List.getElem?_eq_some_iff.1 h'
  exact List.pairwise_iff_getElem.1 hs i j hi hj hij

namespace PieceTable

theorem maxOffset_eq {t : PieceTable} (hw : t.WF) : t.maxOffset = .ok (t.content.length - 1) := by
  unfold maxOffset
  by_cases he : t.isEmpty = true
  · rw [if_pos he, (isEmpty_iff hw).1 he]; rfl
  · rw [if_neg he, hw.len_eq]
    have : t.content ≠ [] := fun h => he ((isEmpty_iff hw).2 h)
    exact subChecked_ok (List.length_pos_iff.2 this)

theorem lineCount_eq {t : PieceTable} (hw : t.WF) (hn : t.NewlinesOk) (hne : t.content ≠ []) :
    t.lineCount = .ok (lines t.content).length := by
  unfold lineCount
  rw [maxOffset_eq hw, lines_length, hn]
  simp only [except_bind_ok, except_pure]
  have hl : t.content.getLast? ≠ none := by simpa using hne
  rw [getLast?_eq_getElem?] at *
  have hcon : (newlinePositions t.content).contains (t.content.length - 1) = true ↔
      t.content[t.content.length - 1]? = some NL := by
    rw [List.contains_iff_mem, mem_newlinePositions]
  by_cases h : t.content[t.content.length - 1]? = some NL
  · rw [if_pos (hcon.2 h), if_pos (Or.inr h)]; rfl
  · rw [if_neg (fun h' => h (hcon.1 h')), if_neg (by rintro (h' | h') <;> contradiction)]

theorem lineCount_empty {t : PieceTable} (hw : t.WF) (hn : t.NewlinesOk) (he : t.content = []) :
    t.lineCount = .ok 1 := by
  unfold lineCount
  rw [maxOffset_eq hw, hn, he]; rfl

theorem lineBytes_eq {t : PieceTable} (hw : t.WF) (hn : t.NewlinesOk) (hne : t.content ≠ []) (n : Nat) :
    t.lineBytes n = .ok (if n = 0 then none else (lines t.content)[n - 1]?) := by
  have hn' : t.newlines = newlinePositions t.content := hn
  unfold lineBytes
  rw [lineCount_eq hw hn hne]
  simp only [except_bind_ok]
  have hpos : 0 < t.content.length := List.length_pos_iff.2 hne
  have hlines : 0 < (lines t.content).length := by
    apply List.length_pos_iff.2
    intro h; exact hne (lines_eq_nil.1 h)
  by_cases h0 : n = 0 ∨ (lines t.content).length < n
  · rw [if_pos h0]
    rcases h0 with h0 | h0
    · simp [h0]
    · rw [if_neg (by omega), List.getElem?_eq_none (by omega)]; rfl
  · rw [if_neg h0, if_neg (by omega : ¬ n = 0)]
    rw [lines_get _ _ (by omega)]
    by_cases h1 : n = 1
    · subst h1
      rw [if_pos rfl, range_eq hw (Nat.zero_le _), if_pos hpos, hn, hw.len_eq]
      rw [List.head?_eq_getElem?]; rfl
    · rw [if_neg h1]
      obtain ⟨m, rfl⟩ : ∃ m, n = m + 2 := ⟨n - 2, by omega⟩
      have hl := lines_length t.content
      have hm : m < (newlinePositions t.content).length := by split at hl <;> omega
      have hs := List.getElem?_eq_getElem hm
      generalize (newlinePositions t.content)[m] = st at hs
      have hst := newline_lt hs
      simp only [hn', Nat.add_sub_cancel, show m + 2 - 1 = m + 1 from rfl, hs, unwrapR, except_bind_ok]
      cases hv : (newlinePositions t.content)[m + 1]? with
      | some v =>
        have hvl := newline_lt hv
        have hvm := newline_mono (Nat.lt_succ_self m) hs hv
        simp only [subChecked_ok (show 1 ≤ v by omega), except_bind_ok,
          subChecked_ok (show st ≤ v - 1 by omega)]
        rw [range_eq hw (by omega), if_pos (by omega)]
        simp only [lineStart, lineStop, hs, hv, Option.getD_some]
        congr 3; omega
      | none =>
        have hml : (newlinePositions t.content).length = m + 1 := by
          have := List.getElem?_eq_none_iff.1 hv; omega
        have hlast : st + 1 < t.content.length := by
          -- otherwise the text would end with this newline
          rcases Nat.lt_or_ge (st + 1) t.content.length with h | h
          · exact h
          · exfalso
            have hmem : t.content[st]? = some NL := mem_newlinePositions.1 (List.mem_of_getElem? hs)
            have e : st = t.content.length - 1 := by omega
            rw [e, ← getLast?_eq_getElem?] at hmem
            rw [if_pos (Or.inr hmem)] at hl
            omega
        simp only [hw.len_eq, except_bind_ok, subChecked_ok (Nat.le_of_lt hst)]
        rw [range_eq hw (by omega), if_pos (by omega)]
        simp only [lineStart, lineStop, hs, hv, Option.getD_some, Option.getD_none]
        congr 2
        unfold slice
        rw [List.take_of_length_le (by omega), List.take_of_length_le (by omega)]

end PieceTable
end Ced

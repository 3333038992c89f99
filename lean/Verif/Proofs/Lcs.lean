import Verif.Proofs.Diff

/-! The table of `find_lcs` holds the lengths of longest common subsequences of prefixes, and the way back through it
loses at most one byte. -/

namespace Ced
namespace DiffM

/-- `n` is the greatest length of a common subsequence of `a` and `b`. -/
def Longest (n : Nat) (a b : Bytes) : Prop :=
  (∃ s : Bytes, s.Sublist a ∧ s.Sublist b ∧ s.length = n) ∧ ∀ s : Bytes, s.Sublist a → s.Sublist b → s.length ≤ n

theorem longest_nil_left (b : Bytes) : Longest 0 [] b :=
  ⟨⟨[], by simp, by simp, rfl⟩, fun s h _ => by simp [List.sublist_nil.1 h]⟩

theorem longest_nil_right (a : Bytes) : Longest 0 a [] :=
  ⟨⟨[], by simp, by simp, rfl⟩, fun s _ h => by simp [List.sublist_nil.1 h]⟩

theorem sub_snoc {s a : Bytes} {x : UInt8} (h : s.Sublist (a ++ [x])) :
    s.Sublist a ∨ ∃ s', s = s' ++ [x] ∧ s'.Sublist a := by
  obtain ⟨l₁, l₂, rfl, h1, h2⟩ := List.sublist_append_iff.1 h
  match l₂, h2 with
  | [], _ => left; simpa using h1
  | y :: l, h2 =>
    have : y :: l = [x] := h2.eq_of_length_le (by simp)
    right; exact ⟨l₁, by rw [this], h1⟩

theorem longest_eq {n : Nat} {a b : Bytes} (x : UInt8) (h : Longest n a b) : Longest (n + 1) (a ++ [x]) (b ++ [x]) := by
  obtain ⟨⟨s, s1, s2, s3⟩, hm⟩ := h
  refine ⟨⟨s ++ [x], s1.append (List.Sublist.refl _), s2.append (List.Sublist.refl _), by simp [s3]⟩, ?_⟩
  intro c c1 c2
  rcases sub_snoc c1 with d1 | ⟨c', rfl, d1⟩ <;> rcases sub_snoc c2 with d2 | ⟨c'', e, d2⟩
  · have := hm _ d1 d2; omega
  · subst e
    have := hm c'' ((List.sublist_append_left _ _).trans d1) d2
    simp; omega
  · have := hm c' d1 ((List.sublist_append_left _ _).trans d2)
    simp; omega
  · have : c' = c'' := by simpa using e
    subst this
    have := hm _ d1 d2; simp; omega

theorem longest_ne {m n : Nat} {a b : Bytes} {x y : UInt8} (hxy : x ≠ y) (h1 : Longest m (a ++ [x]) b)
    (h2 : Longest n a (b ++ [y])) : Longest (max m n) (a ++ [x]) (b ++ [y]) := by
  obtain ⟨⟨s, s1, s2, s3⟩, hm⟩ := h1
  obtain ⟨⟨t, t1, t2, t3⟩, hn⟩ := h2
  refine ⟨?_, ?_⟩
  · rcases Nat.le_total m n with h | h
    · exact ⟨t, t1.trans (List.sublist_append_left _ _), t2, by omega⟩
    · exact ⟨s, s1, s2.trans (List.sublist_append_left _ _), by omega⟩
  · intro c c1 c2
    rcases sub_snoc c2 with c2' | ⟨c', rfl, c2'⟩
    · have := hm _ c1 c2'; omega
    · rcases sub_snoc c1 with c1' | ⟨c'', e, c1'⟩
      · have := hn _ c1' c2; omega
      · have := congrArg List.getLast? e
        simp at this
        exact absurd this.symm hxy

theorem longest_unique {m n : Nat} {a b : Bytes} (h1 : Longest m a b) (h2 : Longest n a b) : m = n := by
  obtain ⟨⟨s, s1, s2, s3⟩, hm⟩ := h1
  obtain ⟨⟨t, t1, t2, t3⟩, hn⟩ := h2
  have := hm _ t1 t2
  have := hn _ s1 s2
  omega

theorem longest_le {n : Nat} {a b : Bytes} (h : Longest n a b) : n ≤ a.length ∧ n ≤ b.length := by
  obtain ⟨⟨s, s1, s2, s3⟩, -⟩ := h
  exact ⟨s3 ▸ s1.length_le, s3 ▸ s2.length_le⟩

/-- A row of the table for the left prefix `a`. -/
def RowOk (row : List Nat) (a right : Bytes) : Prop :=
  ∀ j, j < right.length → Longest (row[j]?.getD 0) a (right.take (j + 1))

theorem take_succ_snoc {l : Bytes} {j : Nat} {y : UInt8} {ys : Bytes} (h : l.drop j = y :: ys) :
    l.take (j + 1) = l.take j ++ [y] ∧ l.drop (j + 1) = ys ∧ j < l.length := by
  have hj : j < l.length := by
    by_cases h' : j < l.length
    · exact h'
    · rw [List.drop_eq_nil_of_le (by omega)] at h; cases h
  rw [List.drop_eq_getElem_cons hj] at h
  injection h with h1 h2
  refine ⟨?_, h2, hj⟩
  rw [← h1, List.take_succ_eq_append_getElem hj]

theorem rowFrom_ok {above : Option (List Nat)} {a right : Bytes} {x : UInt8}
    (habove : match above with | none => a = [] | some row => RowOk row a right) :
    ∀ (ys : Bytes) (e j : Nat), right.drop j = ys → (j = 0 → e = 0) → Longest e (a ++ [x]) (right.take j) →
      ∀ k, k < ys.length → Longest ((rowFrom above x e j ys)[k]?.getD 0) (a ++ [x]) (right.take (j + k + 1)) := by
  intro ys
  induction ys with
  | nil => intro e j _ _ _ k hk; simp at hk
  | cons y ys ih =>
    intro e j hd h0 he k hk
    obtain ⟨ht, hd', hj⟩ := take_succ_snoc hd
    have hv : Longest (cell above e x y j) (a ++ [x]) (right.take (j + 1)) := by
      rw [ht]
      unfold cell
      by_cases hxy : x = y
      · subst hxy
        rw [if_pos rfl]
        cases above with
        | none =>
          simp only at habove ⊢
          subst habove
          exact longest_eq (n := 0) x (longest_nil_left _)
        | some row =>
          simp only at habove ⊢
          split
          · rename_i hj0; subst hj0
            exact longest_eq (n := 0) x (by simpa using longest_nil_right a)
          · have := habove (j - 1) (by omega)
            rw [show j - 1 + 1 = j by omega] at this
            exact longest_eq x this
      · rw [if_neg hxy]
        cases above with
        | none =>
          simp only at habove ⊢
          subst habove
          have := longest_ne hxy he (longest_nil_left (right.take j ++ [y]))
          split
          · rename_i hj0; rw [h0 hj0] at this; simpa using this
          · simpa using this
        | some row =>
          simp only at habove ⊢
          have hrow := habove j hj
          rw [ht] at hrow
          have := longest_ne hxy he hrow
          split
          · rename_i hj0; rw [h0 hj0] at this; simpa using this
          · exact this
    cases k with
    | zero => simpa [rowFrom] using hv
    | succ k =>
      have := ih (cell above e x y j) (j + 1) hd' (by omega) hv k (by simpa using hk)
      simp only [rowFrom, List.getElem?_cons_succ]
      rw [show j + (k + 1) + 1 = j + 1 + k + 1 by omega]
      exact this

theorem row_ok {above : Option (List Nat)} {a right : Bytes} (x : UInt8)
    (habove : match above with | none => a = [] | some row => RowOk row a right) :
    RowOk (rowFrom above x 0 0 right) (a ++ [x]) right := by
  intro j hj
  have := rowFrom_ok (x := x) habove right 0 0 rfl (fun _ => rfl) (by simpa using longest_nil_right _) j hj
  simpa using this

theorem table_ok : ∀ (xs a : Bytes) (above : Option (List Nat)) (right : Bytes),
    (match above with | none => a = [] | some row => RowOk row a right) →
    ∀ i j, i < xs.length → j < right.length →
      Longest ((tableFrom above right xs)[i * right.length + j]?.getD 0) (a ++ xs.take (i + 1)) (right.take (j + 1)) := by
  intro xs
  induction xs with
  | nil => intro a above right _ i j hi; simp at hi
  | cons x xs ih =>
    intro a above right habove i j hi hj
    have hrow := row_ok x habove
    simp only [tableFrom]
    cases i with
    | zero =>
      rw [List.getElem?_append_left (by rw [rowFrom_length]; simpa using hj)]
      simpa using hrow j hj
    | succ i =>
      rw [List.getElem?_append_right (by rw [rowFrom_length, Nat.add_mul]; omega)]
      have := ih (a ++ [x]) (some (rowFrom above x 0 0 right)) right hrow i j (by simpa using hi) hj
      rw [rowFrom_length, show (i + 1) * right.length + j - right.length = i * right.length + j by rw [Nat.add_mul]; omega]
      simpa using this

theorem take_snoc_get {l : Bytes} {i : Nat} (h : i < l.length) : l.take (i + 1) = l.take i ++ [l[i]] := by
  rw [List.take_succ_eq_append_getElem h]

/-- The way back collects all but at most one byte. -/
theorem backtrack_long (left right : Bytes) (fuel i j : Nat) (lcs : Bytes) (hi : i ≤ left.length)
    (hj : j ≤ right.length) (hf : i + j ≤ fuel) {n : Nat} (hn : Longest n (left.take i) (right.take j)) {r : Bytes}
    (h : backtrack left right (tableFrom none right left) fuel i j lcs = .ok r) :
    lcs.length + n ≤ r.length + 1 := by
  have htab := table_ok left [] none right rfl
  have hlen := tableFrom_length none right left
  generalize hmt : tableFrom none right left = mt at *
  induction fuel generalizing i j lcs n with
  | zero =>
    simp only [backtrack] at h; cases h
    have := (longest_le hn).1
    simp at this; omega
  | succ fuel ih =>
    match i, j with
    | 0, _ =>
      simp only [backtrack] at h; cases h
      have := (longest_le hn).1
      simp at this; omega
    | i + 1, 0 =>
      simp only [backtrack] at h; cases h
      have := (longest_le hn).2
      simp at this; omega
    | i + 1, j + 1 =>
      have hi' : i < left.length := hi
      have hj' : j < right.length := hj
      rw [backtrack, indexR_ok hi'] at h
      simp only [except_bind_ok] at h
      rw [indexR_ok hj'] at h
      simp only [except_bind_ok] at h
      rw [take_snoc_get hi', take_snoc_get hj'] at hn
      have hbound : (i - 1) * right.length + j < mt.length := by
        rw [hlen]
        have : (i - 1) * right.length + right.length ≤ left.length * right.length := by
          rw [← Nat.succ_mul]; exact Nat.mul_le_mul_right _ (by omega)
        omega
      by_cases hxy : left[i] = right[j]
      · rw [if_pos hxy] at h
        obtain ⟨m, hm⟩ : ∃ m, Longest m (left.take i) (right.take j) := by
          cases i with
          | zero => exact ⟨0, by simpa using longest_nil_left _⟩
          | succ i =>
            cases j with
            | zero => exact ⟨0, by simpa using longest_nil_right _⟩
            | succ j => exact ⟨_, htab i j (by omega) (by omega)⟩
        have := ih i j _ (by omega) (by omega) (by omega) hm h
        have e := longest_eq left[i] hm
        have e2 : Longest (m + 1) (left.take i ++ [left[i]]) (right.take j ++ [right[j]]) := by
          rw [← hxy]; exact e
        have := longest_unique hn e2
        simp at *; omega
      · rw [if_neg hxy] at h
        split at h
        · rename_i h0
          obtain ⟨rfl, rfl⟩ := h0
          cases h
          have h1 := longest_le hn
          simp at h1; omega
        · rename_i h0
          by_cases hi0 : i = 0
          · subst hi0
            simp only [if_true, except_bind_ok] at h
            -- only the row of the first byte is left: moving left keeps the greatest length
            have hm := htab 0 (j - 1) (by omega) (by omega)
            rw [show j - 1 + 1 = j by omega] at hm
            simp only [List.nil_append] at hm
            have := ih 1 j _ (by omega) (by omega) (by omega) hm h
            rw [take_snoc_get hi'] at hm
            have e := longest_ne hxy hm (longest_nil_left (right.take j ++ [right[j]]))
            simp only [List.take_zero, List.nil_append] at hn
            rw [Nat.max_zero] at e
            have := longest_unique hn e
            omega
          · rw [if_neg hi0] at h
            have hpos : 1 ≤ i * right.length + j := by
              have : right.length ≤ i * right.length := Nat.le_mul_of_pos_left _ (by omega)
              omega
            have hk : i * right.length + j - 1 < mt.length := by
              rw [hlen]
              have : i * right.length + right.length ≤ left.length * right.length := by
                rw [← Nat.succ_mul]; exact Nat.mul_le_mul_right _ (by omega)
              omega
            rw [show subChecked (i * right.length + j) 1 = .ok (i * right.length + j - 1) by
              unfold subChecked; rw [if_pos hpos]] at h
            simp only [except_bind_ok] at h
            rw [indexR_ok hk] at h
            simp only [except_bind_ok] at h
            rw [indexR_ok hbound] at h
            simp only [except_bind_ok, except_pure] at h
            rw [show mt[i * right.length + j - 1] = (mt[i * right.length + j - 1]?).getD 0 by
              rw [List.getElem?_eq_getElem hk]; rfl] at h
            have hup := htab (i - 1) j (by omega) hj'
            rw [show i - 1 + 1 = i by omega, List.getElem?_eq_getElem hbound] at hup
            simp only [List.nil_append, Option.getD_some] at hup
            split at h
            · rename_i hgt
              simp only [decide_eq_true_eq] at hgt
              cases j with
              | zero =>
                -- column 0: the code reads the end of the previous row and may stop one byte early
                have hr : r = lcs := by
                  cases fuel <;> simp [backtrack] at h <;> exact h.symm
                subst hr
                have h1 := (longest_le hn).2
                simp at h1; omega
              | succ j =>
                have hleft := htab i j hi' (by omega)
                rw [show i * right.length + (j + 1) - 1 = i * right.length + j by omega] at hgt
                simp only [List.nil_append] at hleft
                have := ih (i + 1) (j + 1) _ (by omega) (by omega) (by omega) hleft h
                rw [take_snoc_get hi'] at hleft
                rw [take_snoc_get hj'] at hup
                have := longest_unique hn (longest_ne hxy hleft hup)
                omega
            · rename_i hgt
              simp only [decide_eq_true_eq] at hgt
              have := ih i (j + 1) _ (by omega) (by omega) (by omega) hup h
              rw [take_snoc_get hj'] at hup
              cases j with
              | zero =>
                have e := longest_ne hxy (longest_nil_right (left.take i ++ [left[i]])) hup
                rw [Nat.zero_max] at e
                have := longest_unique hn e
                omega
              | succ j =>
                have hleft := htab i j hi' (by omega)
                rw [show i * right.length + (j + 1) - 1 = i * right.length + j by omega] at hgt
                simp only [List.nil_append] at hleft
                rw [take_snoc_get hi'] at hleft
                have := longest_unique hn (longest_ne hxy hleft hup)
                omega

theorem findLcs_long {left right s c : Bytes} (h : findLcs left right = .ok s) (hl : left ≠ []) (hr : right ≠ [])
    (h1 : c.Sublist left) (h2 : c.Sublist right) : c.length ≤ s.length + 1 := by
  have l1 : 1 ≤ left.length := List.length_pos_iff.2 hl
  have l2 : 1 ≤ right.length := List.length_pos_iff.2 hr
  unfold findLcs at h
  rw [show subChecked left.length 1 = .ok (left.length - 1) by unfold subChecked; rw [if_pos l1],
    show subChecked right.length 1 = .ok (right.length - 1) by unfold subChecked; rw [if_pos l2]] at h
  simp only [except_bind_ok] at h
  rw [show left.length - 1 + 1 = left.length by omega, show right.length - 1 + 1 = right.length by omega] at h
  have hm := table_ok left [] none right rfl (left.length - 1) (right.length - 1) (by omega) (by omega)
  rw [show left.length - 1 + 1 = left.length by omega, show right.length - 1 + 1 = right.length by omega] at hm
  simp only [List.nil_append, List.take_length] at hm
  have := backtrack_long left right (left.length + right.length) left.length right.length [] (Nat.le_refl _)
    (Nat.le_refl _) (Nat.le_refl _) (by simpa using hm) h
  have := hm.2 c h1 h2
  simp at *
  omega

end DiffM
end Ced

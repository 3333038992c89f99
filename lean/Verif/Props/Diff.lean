import Verif.Model.Buffer
import Verif.Props.Editing
import Verif.Proofs.Lcs
import Verif.Proofs.DiffExact
import Verif.Proofs.Chars

/-!
# Properties of the difference algorithm and of reloading: C10, C11, C12

`Spec.applyScript ds left right` is what a script means.
-/

namespace Ced.Props
open Spec PieceTable DiffM

/-! ## C11 -/

/-- C11: the byte sequence computed between two non-empty texts exists (the computation never panics) and is a
subsequence of both. -/
theorem C11_common_subsequence {left right : Bytes} (hl : left ≠ []) (hr : right ≠ []) :
    ∃ s, findLcs left right = .ok s ∧ s.Sublist left ∧ s.Sublist right := findLcs_sub hl hr

example : findLcs [116, 111, 116, 111] [116, 105, 116, 111, 108, 97] = .ok [116, 116, 111] := by decide

/-- It is not always a *longest* common subsequence: between `"abcb"` and `"ab"` the code finds `"b"` only. -/
theorem C11_not_longest :
    ∃ (left right s c : Bytes), findLcs left right = .ok s ∧ c.Sublist left ∧ c.Sublist right ∧ s.length < c.length :=
  ⟨[97, 98, 99, 98], [97, 98], [98], [97, 98], by decide, by decide, by decide, by decide⟩

/-- But it is never more than one byte shorter than any common subsequence. -/
theorem C11_nearly_longest {left right s c : Bytes} (h : findLcs left right = .ok s) (hl : left ≠ [])
    (hr : right ≠ []) (h1 : c.Sublist left) (h2 : c.Sublist right) : c.length ≤ s.length + 1 :=
  findLcs_long h hl hr h1 h2

example : ([116, 116, 111] : Bytes).length ≤ ([116, 116, 111] : Bytes).length + 1 :=
  C11_nearly_longest (left := [116, 111, 116, 111]) (right := [116, 105, 116, 111, 108, 97]) (by decide) (by decide)
    (by decide) (by decide) (by decide)

/-! ## C10 -/

/-- C10: any two texts have a longest common beginning and, behind it, a longest common end. -/
theorem C10_split (left right : Bytes) : ∃ p l r s, Split left right p l r s := split_exists left right

theorem length_split {left right p l r s : Bytes} (h : Split left right p l r s) :
    left.length = p.length + l.length + s.length ∧ right.length = p.length + r.length + s.length := by
  rw [h.left, h.right]; simp; omega

/-- C10: what the difference of two texts is, for every pair.

* When there is a common beginning and the rest has no common end, or one of the same length, the script changes nothing.
* Otherwise, when the change is a pure insertion or deletion (or both texts are empty), computing it crashes.
* Otherwise a script is found; applied to the left text it gives the right one except that at one place one byte may be
  missing and one may be left over; it is exact if and only if it accounts for all bytes of both texts. -/
theorem C10_diff {left right p l r s : Bytes} (h : Split left right p l r s) :
    (Unnoticed p s → ∃ ds, diff left right = .ok ds ∧ applyScript ds left right = left) ∧
    (¬ Unnoticed p s → l = [] ∨ r = [] → diff left right = .error .overflow) ∧
    (¬ Unnoticed p s → l ≠ [] → r ≠ [] → ∃ ds, diff left right = .ok ds ∧
      OneByteOff right (applyScript ds left right) ∧
      (applyScript ds left right = right ↔ spanLeft ds = left.length ∧ spanRight ds = right.length)) := by
  refine ⟨fun hu => ⟨_, diff_early h hu, by simp [applyScript, List.take_append_drop]⟩, fun hu hm => diff_empty h hu hm,
    fun hu hl hr => ?_⟩
  obtain ⟨ds0, lc, l', rc, r', e, d1, d2, d0, d3, d4, d5⟩ := diff_middle h hu hl hr
  obtain ⟨n1, n2⟩ := length_split h
  have hll : l.length = lc.length + l'.length := by rw [d1]; simp
  have hrr : r.length = rc.length + r'.length := by rw [d2]; simp
  have hright : right = p ++ rc ++ r' ++ s := by rw [h.right, d2]; simp
  refine ⟨_, e, ?_, ?_⟩
  · rw [d5]
    by_cases hr1 : r'.length = 1
    · rw [if_pos hr1]
      refine ⟨p ++ rc, r', if l'.length = 1 then l' else [], s, hright, by simp, by omega, by split <;> simp_all⟩
    · rw [if_neg hr1]
      refine ⟨p ++ rc ++ r', [], if l'.length = 1 then l' else [], s, by rw [hright]; simp, rfl, by simp,
        by split <;> simp_all⟩
  · rw [d5]
    simp only [spanLeft_append, spanRight_append, spanLeft_push, spanRight_push, d3, d4]
    constructor
    · intro heq
      rw [hright] at heq
      have hlen := congrArg List.length heq
      simp only [List.length_append] at hlen
      by_cases hl1 : l'.length = 1
      · by_cases hr1 : r'.length = 1
        · exfalso
          rw [if_pos hl1, if_pos hr1] at heq
          simp only [List.append_assoc, List.nil_append, List.append_cancel_left_eq, List.append_cancel_right_eq] at heq
          obtain ⟨b, hb⟩ := List.length_eq_one_iff.1 hl1
          rw [hb] at heq d1
          rw [← heq] at d2
          exact h.ending b lc rc d1 d2
        · rw [if_pos hl1, if_neg hr1] at hlen
          omega
      · by_cases hr1 : r'.length = 1
        · rw [if_neg hl1, if_pos hr1] at hlen
          simp only [List.length_nil] at hlen
          omega
        · rw [if_neg hl1, if_neg hr1]
          omega
    · intro hh
      have hl1 : l'.length ≠ 1 := by intro x; rw [if_pos x] at hh; omega
      have hr1 : r'.length ≠ 1 := by intro x; rw [if_pos x] at hh; omega
      rw [if_neg hl1, if_neg hr1, hright]
      simp

/-- three pairs of texts, one for each case, and one where the script is exact -/
example :
    Split [97, 98] [97, 99] [97] [98] [99] [] ∧ Unnoticed [97] [] ∧
    Split [97, 97, 98] [97, 97, 88, 98] [97, 97] [] [88] [98] ∧ ¬ Unnoticed [97, 97] [98] ∧
    diff [120, 97, 98] [99, 100, 98] = .ok [.left 2, .right 2, .both 1] ∧
    spanLeft [.left 2, .right 2, .both 1] = 3 ∧ spanRight [.left 2, .right 2, .both 1] = 3 := by
  refine ⟨⟨rfl, rfl, ?_, ?_⟩, ⟨by decide, Or.inl rfl⟩, ⟨rfl, rfl, ?_, ?_⟩, ?_, by decide, by decide, by decide⟩
  · intro b x y h1 h2; simp at h1 h2; exact absurd (h1.1.trans h2.1.symm) (by decide)
  · intro b x y h1 h2
    cases x with
    | nil => cases y with
      | nil => simp at h1 h2; exact absurd (h1.trans h2.symm) (by decide)
      | cons _ y => simp at h2
    | cons _ x => simp at h1
  · intro b x y h1 h2; simp at h1 h2; exact absurd (h1.1.trans h2.1.symm) (by decide)
  · intro b x y h1 h2; simp at h1
  · intro hu; rcases hu.2 with h | h
    · cases h
    · simp at h

/-- C10: so when only bytes were inserted, or only deleted, the script is never right. -/
theorem C10_insertion_never {left right p l r s : Bytes} (h : Split left right p l r s) (hm : l = [] ∨ r = [])
    (hne : left ≠ right) : ¬ ∃ ds, diff left right = .ok ds ∧ applyScript ds left right = right := by
  rintro ⟨ds, e1, e2⟩
  obtain ⟨c1, c2, _⟩ := C10_diff h
  by_cases hu : Unnoticed p s
  · obtain ⟨ds', e3, e4⟩ := c1 hu
    rw [e1] at e3; cases e3
    exact hne (e4.symm.trans e2)
  · rw [c2 hu hm] at e1; cases e1

example : ¬ ∃ ds, diff [97, 97, 98] [97, 97, 88, 98] = .ok ds ∧
    applyScript ds [97, 97, 98] [97, 97, 88, 98] = [97, 97, 88, 98] := by
  obtain ⟨p, l, r, s, h⟩ := C10_split [97, 97, 98] [97, 97, 88, 98]
  rintro ⟨ds, e, _⟩
  rw [show diff [97, 97, 98] [97, 97, 88, 98] = .error .overflow by decide] at e
  cases e

/-- C10, a class of texts on which the script is right: the difference is noticed, and the last byte but one of the middle
of either text exists and does not occur in the middle of the other. -/
theorem C10_right {left right p l r s l0 r0 : Bytes} {a b c d : UInt8} (h : Split left right p l r s)
    (hu : ¬ Unnoticed p s) (hl : l = l0 ++ [a, b]) (hr : r = r0 ++ [c, d]) (ha : a ∉ r) (hc : c ∉ l) :
    ∃ ds, diff left right = .ok ds ∧ applyScript ds left right = right := by
  have hl0 : l ≠ [] := by rw [hl]; simp
  have hr0 : r ≠ [] := by rw [hr]; simp
  obtain ⟨ds0, lc, l', rc, r', e, d1, d2, d0, d3, d4, d5⟩ := diff_middle h hu hl0 hr0
  refine ⟨_, e, ?_⟩
  have key : l'.length ≠ 1 ∧ r'.length ≠ 1 := by
    rcases d0 with ⟨rfl, rfl⟩ | ⟨x, lx, rx, h1, h2⟩
    · rw [hl, hr]; simp
    · constructor
      · intro hh
        obtain ⟨z, rfl⟩ := List.length_eq_one_iff.1 hh
        have : (lx ++ [x]) ++ [z] = (l0 ++ [a]) ++ [b] := by rw [← List.append_cons, ← h1, hl]; simp
        have := (List.append_inj' this rfl).1
        have := (List.append_inj' this rfl).2
        simp only [List.cons.injEq, and_true] at this
        apply ha; rw [h2, this]; simp
      · intro hh
        obtain ⟨z, rfl⟩ := List.length_eq_one_iff.1 hh
        have : (rx ++ [x]) ++ [z] = (r0 ++ [c]) ++ [d] := by rw [← List.append_cons, ← h2, hr]; simp
        have := (List.append_inj' this rfl).1
        have := (List.append_inj' this rfl).2
        simp only [List.cons.injEq, and_true] at this
        apply hc; rw [h1, this]; simp
  rw [d5, if_neg key.1, if_neg key.2, h.right, d2]
  simp

example : ∃ ds, diff [1, 2, 3, 4, 5] [1, 6, 3, 7, 8, 4, 5] = .ok ds ∧
    applyScript ds [1, 2, 3, 4, 5] [1, 6, 3, 7, 8, 4, 5] = [1, 6, 3, 7, 8, 4, 5] := by
  refine C10_right (p := [1]) (l := [2, 3]) (r := [6, 3, 7, 8]) (s := [4, 5]) (l0 := []) (r0 := [6, 3]) ⟨rfl, rfl, ?_, ?_⟩ ?_
    rfl rfl (by decide) (by decide)
  · intro b x y h1 h2; simp at h1 h2; exact absurd (h1.1.trans h2.1.symm) (by decide)
  · intro b x y h1 h2
    have h1' := congrArg List.getLast? h1
    have h2' := congrArg List.getLast? h2
    simp at h1' h2'
    exact absurd (h1'.trans h2'.symm) (by decide)
  · intro hu; rcases hu.2 with h | h
    · cases h
    · simp at h

/-- no common byte -/
def Disjoint (l r : Bytes) : Prop := ∀ b ∈ l, b ∉ r

theorem commonPrefix_disjoint {l r : Bytes} (h : Disjoint l r) : commonPrefix l r = 0 := by
  cases l with
  | nil => rfl
  | cons a l =>
    cases r with
    | nil => rfl
    | cons b r =>
      have : a ≠ b := fun e => h a (by simp) (by simp [e])
      simp [commonPrefix, this]

theorem precompute_disjoint (p s : Bytes) {l r : Bytes} (hl : l ≠ []) (hr : r ≠ []) (h : Disjoint l r) :
    precompute (p ++ l ++ s) (p ++ r ++ s) =
      if p.length = s.length ∨ s.length = 0 then (p.length, none) else (p.length, some s.length) := by
  have h1 : commonPrefix (p ++ l ++ s) (p ++ r ++ s) = p.length := by
    rw [List.append_assoc, List.append_assoc, commonPrefix_append]
    cases l with
    | nil => exact absurd rfl hl
    | cons a l =>
      cases r with
      | nil => exact absurd rfl hr
      | cons b r =>
        have : a ≠ b := fun e => h a (by simp) (by simp [e])
        simp [commonPrefix, this]
  have h2 : commonPrefix (s.reverse ++ l.reverse) (s.reverse ++ r.reverse) = s.length := by
    rw [commonPrefix_append, commonPrefix_disjoint]
    · simp
    · intro b hb hb'; exact h b (by simpa using hb) (by simpa using hb')
  unfold precompute
  rw [h1]
  simp only [List.append_assoc, List.drop_left, List.reverse_append, h2]

theorem diffFrom_disjoint (p s : Bytes) {l r : Bytes} (hl : l ≠ []) (hr : r ≠ []) (h : Disjoint l r) :
    diffFrom (p ++ l ++ s) (p ++ r ++ s) p.length s.length =
      .ok (pushPos .both p.length ++ (if 1 < l.length then [.left l.length] else []) ++
        (if 1 < r.length then [.right r.length] else []) ++ pushPos .both s.length) := by
  have e1 : ((p ++ l ++ s).take ((p ++ l ++ s).length - s.length)).drop p.length = l := by
    rw [show (p ++ l ++ s).length - s.length = (p ++ l).length by simp; omega, List.take_left, List.drop_left]
  have e2 : ((p ++ r ++ s).take ((p ++ r ++ s).length - s.length)).drop p.length = r := by
    rw [show (p ++ r ++ s).length - s.length = (p ++ r).length by simp; omega, List.take_left, List.drop_left]
  have hlcs : findLcs l r = .ok [] := by
    obtain ⟨c, e, s1, s2⟩ := findLcs_sub hl hr
    cases c with
    | nil => exact e
    | cons b c => exact absurd (s2.subset (by simp)) (h b (s1.subset (by simp)))
  have h1 := List.length_pos_iff.2 hl
  have h2 := List.length_pos_iff.2 hr
  have c1 : (l.length - l.length < l.length - 1) ↔ 1 < l.length := by omega
  have c2 : (r.length - r.length < r.length - 1) ↔ 1 < r.length := by omega
  unfold diffFrom
  rw [e1, e2]
  simp only [hlcs, except_bind_ok, List.length_nil, loop, subChecked_ok h1, subChecked_ok h2, except_pure,
    List.append_nil, c1, c2]
  simp only [Nat.sub_self, Nat.sub_zero]

/-- C10, a class of inputs on which the script is right: a block of at least two bytes is replaced by a block of at
least two bytes having no byte in common with it, and the unchanged texts around it are of different lengths
(or there is nothing before). -/
theorem C10_block_replaced (p s l r : Bytes) (hl : 1 < l.length) (hr : 1 < r.length) (h : Disjoint l r)
    (hps : p = [] ∨ (s ≠ [] ∧ p.length ≠ s.length)) :
    ∃ ds, diff (p ++ l ++ s) (p ++ r ++ s) = .ok ds ∧
      applyScript ds (p ++ l ++ s) (p ++ r ++ s) = p ++ r ++ s := by
  have hl0 : l ≠ [] := by intro e; rw [e] at hl; simp at hl
  have hr0 : r ≠ [] := by intro e; rw [e] at hr; simp at hr
  have hd : diff (p ++ l ++ s) (p ++ r ++ s) = diffFrom (p ++ l ++ s) (p ++ r ++ s) p.length s.length := by
    unfold diff
    rw [precompute_disjoint p s hl0 hr0 h]
    by_cases hc : p.length = s.length ∨ s.length = 0
    · rw [if_pos hc]
      have hp : p = [] := by
        rcases hps with h1 | ⟨h1, h2⟩
        · exact h1
        · rcases hc with hc | hc
          · exact absurd hc h2
          · exact absurd (List.length_eq_zero_iff.1 hc) h1
      have hs : s.length = 0 := by rcases hc with hc | hc <;> simp_all
      simp [hp, hs]
    · rw [if_neg hc]
  refine ⟨_, by rw [hd, diffFrom_disjoint p s hl0 hr0 h, if_pos hl, if_pos hr], ?_⟩
  simp only [List.append_assoc]
  rw [pushPos_both _ _ _ _ _ rfl]
  simp only [List.cons_append, List.nil_append, applyScript, List.drop_left, List.take_left]
  have := pushPos_both s.length [] s [] [] rfl
  simp only [List.append_nil, applyScript] at this
  rw [this]

example : ∃ ds, diff ([1] ++ [2, 3] ++ [4, 5]) ([1] ++ [6, 7, 8] ++ [4, 5]) = .ok ds ∧
    applyScript ds ([1] ++ [2, 3] ++ [4, 5]) ([1] ++ [6, 7, 8] ++ [4, 5]) = [1] ++ [6, 7, 8] ++ [4, 5] :=
  C10_block_replaced [1] [4, 5] [2, 3] [6, 7, 8] (by decide) (by decide)
    (by intro b hb; simp at hb; rcases hb with rfl | rfl <;> simp) (by simp)

/-- C10 is violated for *every* change of a single byte: whatever the texts around it, the script leaves the left
text as it is. -/
theorem C10_single_byte_change_lost (p s : Bytes) (x y : UInt8) (hxy : x ≠ y) :
    ∃ ds, diff (p ++ [x] ++ s) (p ++ [y] ++ s) = .ok ds ∧
      applyScript ds (p ++ [x] ++ s) (p ++ [y] ++ s) = p ++ [x] ++ s ∧ p ++ [x] ++ s ≠ p ++ [y] ++ s := by
  have hdis : Disjoint [x] [y] := by intro b hb; simp at hb; subst hb; simpa using hxy
  have hne : p ++ [x] ++ s ≠ p ++ [y] ++ s := by simpa using hxy
  have hfrom : ∃ ds, diffFrom (p ++ [x] ++ s) (p ++ [y] ++ s) p.length s.length = .ok ds ∧
      applyScript ds (p ++ [x] ++ s) (p ++ [y] ++ s) = p ++ [x] ++ s := by
    refine ⟨_, diffFrom_disjoint p s (by simp) (by simp) hdis, ?_⟩
    simp only [List.append_assoc, List.length_singleton, Nat.lt_irrefl, if_false, List.nil_append]
    rw [pushPos_both _ _ _ _ _ rfl]
    congr 1
    unfold pushPos
    split
    · simp [applyScript]
    · rfl
  unfold diff
  rw [precompute_disjoint p s (by simp) (by simp) hdis]
  by_cases hc : p.length = s.length ∨ s.length = 0
  · rw [if_pos hc]
    simp only
    by_cases hp : p.length > 0
    · rw [if_pos hp]
      refine ⟨_, rfl, ?_, hne⟩
      simp only [pushPos, hp, if_true, applyScript]
      exact List.take_append_drop _ _
    · rw [if_neg hp]
      have hs : s.length = 0 := by omega
      obtain ⟨ds, e1, e2⟩ := hfrom
      rw [hs] at e1
      exact ⟨ds, e1, e2, hne⟩
  · rw [if_neg hc]
    obtain ⟨ds, e1, e2⟩ := hfrom
    exact ⟨ds, e1, e2, hne⟩

/-- C10 is violated whenever only the end of a text changes: a block at the very end, after a common beginning, is
replaced by a block without a byte in common, and the script leaves the left text as it is. -/
theorem C10_changed_end_lost (p l r : Bytes) (hp : p ≠ []) (hl : l ≠ []) (hr : r ≠ []) (h : Disjoint l r) :
    ∃ ds, diff (p ++ l) (p ++ r) = .ok ds ∧ applyScript ds (p ++ l) (p ++ r) = p ++ l ∧ p ++ l ≠ p ++ r := by
  have hpre := precompute_disjoint p [] hl hr h
  simp only [List.append_nil, List.length_nil, or_true, if_true] at hpre
  have hpos := List.length_pos_iff.2 hp
  refine ⟨pushPos .both p.length, ?_, ?_, ?_⟩
  · unfold diff; rw [hpre]; simp [hpos]
  · simp only [pushPos, hpos, if_true, applyScript]
    exact List.take_append_drop _ _
  · simp only [ne_eq, List.append_cancel_left_eq]
    intro e; subst e
    cases l with
    | nil => exact hl rfl
    | cons b l => exact h b (by simp) (by simp)

/-- C10: pure insertions and deletions can crash: `"aab"` to `"aaXb"`, and any text to the empty one. -/
theorem C10_crashes :
    diff [97, 97, 98] [97, 97, 88, 98] = .error .overflow ∧
    (∀ left, diff left [] = .error .overflow) := by
  refine ⟨by decide, ?_⟩
  intro left
  cases left with
  | nil => rfl
  | cons a l =>
    have hpre : precompute (a :: l) [] = (0, none) := by
      have : commonPrefix (l.reverse ++ [a]) [] = 0 := by
        cases l.reverse <;> rfl
      simp [precompute, commonPrefix, this]
    unfold diff
    rw [hpre]
    simp only [Nat.lt_irrefl, if_false]
    have he : ∀ (x : Bytes), findLcs x (List.drop 0 (List.take (([] : Bytes).length - 0) [])) = .error .overflow :=
      fun x => findLcs_empty (Or.inr (by simp))
    unfold diffFrom
    simp only [he]
    rfl

/-! ## C12 -/

theorem ascii_charBoundary {s : Bytes} (h : Ascii s) {k : Nat} (hk : k ≤ s.length) : isCharBoundary s k = true := by
  unfold isCharBoundary
  rcases Nat.lt_or_ge k s.length with h1 | h1
  · have hb := h s[k] (List.getElem_mem h1)
    have : isCont s[k] = false := by
      have hb' : s[k].toNat < 128 := hb
      unfold isCont
      simp only [Bool.and_eq_false_iff, decide_eq_false_iff_not]
      exact Or.inl (by omega)
    simp [h1, this]
  · have : k = s.length := by omega
    simp [this]

/-- the outcome of re-reading a changed file that is text, in terms of the difference -/
theorem reload_eq {b : Buffer} {path : Path} (hsrc : b.source = .file path) {fs : FileSystem} {f : DiskFile}
    (hf : fs path = some f) (htextf : IsText f.content) (hchanged : b.isSynced fs = false) {hd : Nat → StaleHandle}
    {now : Nat} : b.loadFromDisk hd fs now =
      (b.content.applyDiff hd f.content).map (fun t => ({ b with content := t, lastSync := some now }, true)) := by
  unfold Buffer.loadFromDisk
  rw [hsrc]
  simp only [hchanged, Bool.false_eq_true, if_false, hf, unwrapR, except_bind_ok]
  unfold readToString
  rw [if_pos (lossy_of_isText htextf)]
  simp only [except_bind_ok]
  cases b.content.applyDiff hd f.content <;> rfl

/-- C12: what re-reading a changed text file does to a buffer showing the text `s`, by the common beginning `p` and the
common end `q` of the old and the new text.

* When the change is not noticed, the buffer keeps its text and counts as synchronised.
* Otherwise, when the change is a pure insertion or deletion, the server crashes.
* Otherwise, when it completes, the buffer shows the content of the file except that at one place one byte may be missing
  and one left over; it shows exactly the content if and only if the script accounts for all bytes.
* In that case it completes if and only if the script cuts the new text between characters — always if the new text is
  ASCII — provided old and new text end in the same byte (or that the tree keeps large offsets in removed nodes). -/
theorem C12_reload {b : Buffer} {path : Path} (hsrc : b.source = .file path) (hb : AnyHistory b.content) {s : Bytes}
    (hs : Shows b.content s) (htext : b.content.text = .ok s) {fs : FileSystem} {f : DiskFile}
    (hf : fs path = some f) (htextf : IsText f.content) (hchanged : b.isSynced fs = false)
    {hd : Nat → StaleHandle} (hfol : ∀ i, (hd i).follows = true) (now : Nat) {p l r q : Bytes}
    (h : Split s f.content p l r q) :
    (Unnoticed p q → ∃ b', b.loadFromDisk hd fs now = .ok (b', true) ∧ b'.source = b.source ∧ b'.lastSync = some now ∧
      Shows b'.content s) ∧
    (¬ Unnoticed p q → l = [] ∨ r = [] → b.loadFromDisk hd fs now = .error .overflow) ∧
    (¬ Unnoticed p q → l ≠ [] → r ≠ [] → ∃ ds, diff s f.content = .ok ds ∧
      (∀ b' x, b.loadFromDisk hd fs now = .ok (b', x) → x = true ∧ b'.source = b.source ∧ b'.lastSync = some now ∧
        (∀ c ∈ cutsFrom 0 ds, IsBoundary f.content c) ∧
        ∃ s', Shows b'.content s' ∧ OneByteOff f.content s' ∧
          (s' = f.content ↔ spanLeft ds = s.length ∧ spanRight ds = f.content.length)) ∧
      (q ≠ [] ∨ (∀ i, s.length ≤ (hd i).staleOffset) →
        (∀ c ∈ cutsFrom 0 ds, IsBoundary f.content c) ∨ Ascii f.content →
        ∃ b', b.loadFromDisk hd fs now = .ok (b', true))) := by
  have hw := reachable_ready hb
  have hc := (shows_iff hw.wf).1 hs
  have htext' : b.content.text = .ok b.content.content := by rw [hc]; exact htext
  have h' : Split b.content.content f.content p l r q := by rw [hc]; exact h
  rw [reload_eq hsrc hf htextf hchanged]
  obtain ⟨c1, c2, c3⟩ := C10_diff h
  refine ⟨fun hu => ?_, fun hu hm => ?_, fun hu hl hr => ?_⟩
  · obtain ⟨t, ht⟩ := applyDiff_unnoticed (hs := hd) htext' h' hu
    obtain ⟨s0, ds, e1, e2, h1, h2, _⟩ := applyDiff_eq hfol hw ht
    rw [htext] at e1; cases e1
    rw [ht]
    refine ⟨_, rfl, rfl, rfl, ?_⟩
    refine (shows_iff h1.wf).2 ?_
    show t.abs.text = s
    rw [h2, hc]
    obtain ⟨ds', e3, e4⟩ := c1 hu
    rw [e2] at e3; cases e3
    exact e4
  · unfold applyDiff
    rw [htext]
    simp only [except_bind_ok]
    rw [c2 hu hm]
    rfl
  · obtain ⟨ds, e3, e4, e5⟩ := c3 hu hl hr
    have hle : ∀ c ∈ cutsFrom 0 ds, c ≤ f.content.length := by
      intro c hcm
      obtain ⟨ds0, lc, l', rc, r', e, d1, d2, _, d3, d4, _⟩ := diff_middle h hu hl hr
      rw [e3] at e; cases e
      have h2 := cutsFrom_le _ _ c hcm
      simp only [spanRight_append, spanRight_push, d4] at h2
      have hrr : r.length = rc.length + r'.length := by rw [d2]; simp
      have := (length_split h).2
      have b2 : (if r'.length = 1 then 0 else r'.length) ≤ r'.length := by split <;> omega
      omega
    refine ⟨ds, e3, ?_, ?_⟩
    · intro b' x hl'
      cases ht : b.content.applyDiff hd f.content with
      | error e => rw [ht] at hl'; cases hl'
      | ok t =>
        rw [ht] at hl'
        simp only [Except.map, Except.ok.injEq, Prod.mk.injEq] at hl'
        obtain ⟨rfl, rfl⟩ := hl'
        obtain ⟨s0, ds', e1, e2, h1, h2, _⟩ := applyDiff_eq hfol hw ht
        rw [htext] at e1; cases e1
        rw [e3] at e2; cases e2
        refine ⟨rfl, rfl, rfl, fun c hcm => (isCharBoundary_iff htextf (hle c hcm)).1 (applyDiff_cuts htext e3 ht c hcm), _, (shows_iff h1.wf).2 rfl, ?_⟩
        have htc : t.content = applyScript ds s f.content := by
          show t.abs.text = _
          rw [h2, hc]
        rw [htc]
        exact ⟨e4, e5⟩
    · intro hend hcuts
      have hcuts' : ∀ c ∈ cutsFrom 0 ds, isCharBoundary f.content c := by
        rcases hcuts with h1 | h1
        · exact fun c hcm => (isCharBoundary_iff htextf (hle c hcm)).2 (h1 c hcm)
        · exact fun c hcm => ascii_charBoundary h1 (hle c hcm)
      obtain ⟨t, ht⟩ := applyDiff_total hfol hw htext' h' hu hl hr (by rw [hc]; exact e3) hcuts'
        (by rw [hc]; exact hend)
      rw [ht]
      exact ⟨_, rfl⟩

/-- C12: so a changed file is completely taken over when the difference is noticed, the last byte but one of the middle
of either text exists and does not occur in the middle of the other, the new text is ASCII and both end alike. -/
theorem C12_taken_over {b : Buffer} {path : Path} (hsrc : b.source = .file path) (hb : AnyHistory b.content) {s : Bytes}
    (hs : Shows b.content s) (htext : b.content.text = .ok s) {fs : FileSystem} {f : DiskFile}
    (hf : fs path = some f) (hascii : Ascii f.content) (hchanged : b.isSynced fs = false)
    {hd : Nat → StaleHandle} (hfol : ∀ i, (hd i).follows = true) (now : Nat) {p l r q l0 r0 : Bytes} {a z c d : UInt8}
    (h : Split s f.content p l r q) (hu : ¬ Unnoticed p q) (hq : q ≠ []) (hl : l = l0 ++ [a, z]) (hr : r = r0 ++ [c, d])
    (ha : a ∉ r) (hc : c ∉ l) :
    ∃ b', b.loadFromDisk hd fs now = .ok (b', true) ∧ Shows b'.content f.content := by
  have hl0 : l ≠ [] := by rw [hl]; simp
  have hr0 : r ≠ [] := by rw [hr]; simp
  obtain ⟨_, _, c3⟩ := C12_reload hsrc hb hs htext hf (isText_ascii hascii) hchanged hfol now h
  obtain ⟨ds, e, h1, h2⟩ := c3 hu hl0 hr0
  obtain ⟨b', hb'⟩ := h2 (Or.inl hq) (Or.inr hascii)
  obtain ⟨_, _, _, _, s', g1, _, g3⟩ := h1 b' true hb'
  obtain ⟨ds', e', e''⟩ := C10_right h hu hl hr ha hc
  rw [e] at e'; cases e'
  obtain ⟨_, _, k3⟩ := C10_diff h
  obtain ⟨ds', k4, _, k5⟩ := k3 hu hl0 hr0
  rw [e] at k4; cases k4
  refine ⟨b', hb', ?_⟩
  rw [← g3.2 (k5.1 e'')]
  exact g1

/-- the path `/f` -/
def pathF : Path := [['f']]

/-- a file buffer on `/f`, read at time 1 -/
def bufF (content : Bytes) : Buffer :=
  { source := .file pathF, content := PieceTable.withText content, lastSync := some 1, modified := false }

/-- a disk where `/f` was written at time 2 -/
def diskF (content : Bytes) : FileSystem := fun p => if p = pathF then some ⟨content, 2⟩ else none

/-- hypotheses of `C12_reload` on a change that is taken over: `"ab
"` to `"cde
"` -/
example : (match (bufF [97, 98, 10]).loadFromDisk (fun _ => H) (diskF [99, 100, 101, 10]) 3 with
    | .ok (b, r) => some (r, b.content.range 0 9) | .error _ => none) =
      some (true, .ok (some [99, 100, 101, 10])) ∧
    (bufF [97, 98, 10]).isSynced (diskF [99, 100, 101, 10]) = false := by decide

/-- `C12_taken_over` on the same change -/
example : ∃ b', (bufF [97, 98, 10]).loadFromDisk (fun _ => H) (diskF [99, 100, 101, 10]) 3 = .ok (b', true) ∧
    Shows b'.content [99, 100, 101, 10] := by
  have hany : AnyHistory (PieceTable.withText [97, 98, 10]) := .withText (by decide) trivial
  refine C12_taken_over (b := bufF [97, 98, 10]) (path := pathF) (f := ⟨[99, 100, 101, 10], 2⟩) (s := [97, 98, 10])
    (p := []) (l := [97, 98]) (r := [99, 100, 101]) (q := [10]) (l0 := []) (r0 := [99]) rfl hany
    (shows_content (reachable_ready hany).wf) (by decide)
    (by decide) (by intro b hb; revert b; decide) (by decide) (fun _ => rfl) 3 ⟨rfl, rfl, ?_, ?_⟩ ?_ (by simp) rfl rfl
    (by decide) (by decide)
  · intro b x y h1 h2; simp at h1 h2; exact absurd (h1.1.trans h2.1.symm) (by decide)
  · intro b x y h1 h2
    have h1' := congrArg List.getLast? h1
    have h2' := congrArg List.getLast? h2
    simp at h1' h2'
    exact absurd (h1'.trans h2'.symm) (by decide)
  · intro hu; exact hu.1 rfl

/-- C12 is violated: a one-byte change of the file (`"abc
"` to `"abd
"`) is not taken over, although the buffer is
marked as synchronised. -/
theorem C12_change_not_reloaded :
    ∃ b', (bufF [97, 98, 99, 10]).loadFromDisk (fun _ => H) (diskF [97, 98, 100, 10]) 3 = .ok (b', true) ∧
      b'.content.range 0 9 = .ok (some [97, 98, 99, 10]) ∧
      b'.isSynced (diskF [97, 98, 100, 10]) = true := by
  refine ⟨{ source := .file pathF, content := ?t, lastSync := some 3, modified := false }, ?_, ?_, ?_⟩
  case t =>
    exact { original := [97, 98, 99, 10], added := [], pieces := [⟨0, 0, 4, true⟩], newlines := [3],
            lastAction := none, undos := [[⟨0, 0, 4, true⟩]], redos := [] }
  all_goals decide

/-- C12 is violated: re-opening a file that became empty crashes, whatever the buffer held. -/
theorem C12_emptied_file_crashes {b : Buffer} (hsrc : b.source = .file pathF) (hs : b.lastSync = some 1)
    {s : Bytes} (htext : b.content.text = .ok s) (hd : Nat → StaleHandle) (now : Nat) :
    b.loadFromDisk hd (diskF []) now = .error .overflow := by
  unfold Buffer.loadFromDisk
  have hsync : b.isSynced (diskF []) = false := by
    unfold Buffer.isSynced; rw [hsrc, hs]; rfl
  rw [hsrc]
  simp only [hsync, Bool.false_eq_true, if_false, diskF, if_true, unwrapR, except_bind_ok]
  have : readToString ⟨[], 2⟩ = .ok [] := by decide
  rw [this]
  simp only [except_bind_ok]
  unfold applyDiff
  rw [htext]
  simp only [except_bind_ok]
  rw [C10_crashes.2]
  rfl

example : (bufF [97, 10]).source = .file pathF ∧ (bufF [97, 10]).lastSync = some 1 ∧
    (bufF [97, 10]).content.text = .ok [97, 10] := by decide

/-- C12: a file whose change splits a multi-byte character crashes the reload: `"xé1y"` to `"xèz2y"`. -/
theorem C12_multibyte_crashes :
    (bufF [120, 195, 169, 49, 121]).loadFromDisk (fun _ => H) (diskF [120, 195, 168, 122, 50, 121]) 3 =
      .error .index := by decide

end Ced.Props

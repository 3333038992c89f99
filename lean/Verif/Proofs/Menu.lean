import Verif.Spec.Menu
import Verif.Model.PlainRegex
import Verif.Proofs.View
import Verif.Proofs.Core
import Batteries.Data.List.Basic

/-! # Sorting, tokens and plain searches of menus -/

namespace Ced.Menu
open Ced.Spec

/-! ## Sorting -/

section
variable {T : Type} {field : T → Str}

theorem before_total (a b : Candidate T) : before field a b = true ∨ before field b a = true := by
  unfold before
  generalize a.span.map score = A
  generalize b.span.map score = B
  by_cases h : A = B
  · rw [if_pos h, if_pos h.symm]
    rcases strLt_tri (field a.object) (field b.object) with h | h | h
    · left
      cases hb : strLt (field b.object) (field a.object) with
      | false => rfl
      | true => have := strLt_trans h hb; rw [strLt_irrefl] at this; cases this
    · left; rw [h, strLt_irrefl]; rfl
    · right
      cases hb : strLt (field a.object) (field b.object) with
      | false => rfl
      | true => have := strLt_trans h hb; rw [strLt_irrefl] at this; cases this
  · rw [if_neg h, if_neg (fun e => h e.symm)]
    cases ha : A with
    | none => cases hb : B with
      | none => exact absurd (ha.trans hb.symm) h
      | some y => right; rfl
    | some x => cases hb : B with
      | none => left; rfl
      | some y =>
        simp only [scoreGreater, decide_eq_true_eq]
        rw [ha, hb] at h
        have : x ≠ y := fun e => h (by rw [e])
        omega

theorem not_lt_trans {a b c : Str} (h1 : strLt b a = false) (h2 : strLt c b = false) : strLt c a = false := by
  cases h : strLt c a with
  | false => rfl
  | true =>
    rcases strLt_tri a b with hab | rfl | hab
    · have := strLt_trans h hab; rw [h2] at this; cases this
    · rw [h2] at h; cases h
    · rw [h1] at hab; cases hab

theorem before_trans {a b c : Candidate T} (h1 : before field a b = true) (h2 : before field b c = true) :
    before field a c = true := by
  unfold before at *
  generalize a.span.map score = A at *
  generalize b.span.map score = B at *
  generalize c.span.map score = C at *
  by_cases hab : A = B
  · rw [if_pos hab] at h1
    by_cases hbc : B = C
    · rw [if_pos hbc] at h2
      rw [if_pos (hab.trans hbc)]
      simp only [Bool.not_eq_true'] at h1 h2 ⊢
      exact not_lt_trans h1 h2
    · rw [if_neg hbc] at h2
      rw [if_neg (by rw [hab]; exact hbc), hab]
      exact h2
  · rw [if_neg hab] at h1
    by_cases hbc : B = C
    · rw [if_neg (by rw [← hbc]; exact hab), ← hbc]
      exact h1
    · rw [if_neg hbc] at h2
      cases ha : A <;> cases hb : B <;> cases hc : C <;> simp_all [scoreGreater]
      · rw [if_neg (by omega)]; omega

theorem insert_perm (c : Candidate T) (l : List (Candidate T)) : (insert field c l).Perm (c :: l) := by
  induction l with
  | nil => exact .refl _
  | cons d l ih =>
    rw [insert]
    split
    · exact .refl _
    · exact (ih.cons d).trans (.swap c d l)

theorem sort_perm (l : List (Candidate T)) : (sort field l).Perm l := by
  induction l with
  | nil => exact .refl _
  | cons c l ih => rw [sort]; exact (insert_perm c _).trans (ih.cons c)

theorem insert_sorted {c : Candidate T} {l : List (Candidate T)}
    (h : l.Pairwise fun a b => before field a b = true) : (insert field c l).Pairwise fun a b => before field a b = true := by
  induction l with
  | nil => simp [insert]
  | cons d l ih =>
    obtain ⟨hd, hl⟩ := List.pairwise_cons.1 h
    rw [insert]
    split
    · rename_i hb
      refine List.pairwise_cons.2 ⟨?_, h⟩
      intro x hx
      rcases List.mem_cons.1 hx with rfl | hx
      · exact hb
      · exact before_trans hb (hd x hx)
    · rename_i hb
      refine List.pairwise_cons.2 ⟨?_, ih hl⟩
      intro x hx
      rcases List.mem_cons.1 ((insert_perm c l).mem_iff.1 hx) with rfl | hx
      · exact (before_total d x).resolve_right hb
      · exact hd x hx

theorem sort_sorted (l : List (Candidate T)) : (sort field l).Pairwise fun a b => before field a b = true := by
  induction l with
  | nil => simp [sort]
  | cons c l ih => rw [sort]; exact insert_sorted ih

end

/-! ## Tokens -/

theorem slice_ok {text : Str} {a b : Nat} (h : a ≤ b) (hb : b ≤ text.length) :
    slice text a b = .ok ((text.drop a).take (b - a)) := by
  unfold slice sliceR; rw [if_pos ⟨h, hb⟩]

theorem inOrder_le {len : Nat} {gs : Locations} {start : Nat} (h : InOrderFrom len start gs) : start ≤ len := by
  induction gs generalizing start with
  | nil => exact h
  | cons g gs ih =>
    cases g with
    | none => exact ih h
    | some ab => obtain ⟨a, b⟩ := ab; obtain ⟨h1, h2, h3⟩ := h; have := ih h3; omega

/-- a position before the ranges is in none -/
theorem inside_before {len : Nat} {gs : Locations} {start i : Nat} (h : InOrderFrom len start gs) (hi : i < start) :
    Inside gs i = false := by
  induction gs generalizing start with
  | nil => rfl
  | cons g gs ih =>
    cases g with
    | none => exact ih h hi
    | some ab =>
      obtain ⟨a, b⟩ := ab
      obtain ⟨h1, h2, h3⟩ := h
      have := ih h3 (by omega)
      simp only [Inside, List.any_cons, Bool.or_eq_false_iff] at this ⊢
      exact ⟨by simp; omega, this⟩

/-- the characters of a piece of a text with their emphasis -/
def marks (text : Str) (locs : Locations) (a b : Nat) : List (Char × Bool) :=
  (List.range' a (b - a)).zipWith (fun i c => (c, Inside locs i)) ((text.drop a).take (b - a))

theorem marks_append {text : Str} {locs : Locations} {a b c : Nat} (h1 : a ≤ b) (h2 : b ≤ c) (h3 : c ≤ text.length) :
    marks text locs a c = marks text locs a b ++ marks text locs b c := by
  unfold marks
  have e1 : List.range' a (c - a) = List.range' a (b - a) ++ List.range' b (c - b) := by
    have : b = a + (b - a) := by omega
    conv => rhs; rhs; rw [this]
    rw [List.range'_append_1]
    congr 1; omega
  have e2 : (text.drop a).take (c - a) = (text.drop a).take (b - a) ++ (text.drop b).take (c - b) := by
    have : c - a = (b - a) + (c - b) := by omega
    rw [this, List.take_add, List.drop_drop]
    congr 3; omega
  rw [e1, e2, List.zipWith_append]
  simp only [List.length_range', List.length_take, List.length_drop]
  omega

theorem marks_const {text : Str} {locs : Locations} {a b : Nat} {v : Bool} (h3 : b ≤ text.length)
    (h : ∀ i, a ≤ i → i < b → Inside locs i = v) :
    marks text locs a b = ((text.drop a).take (b - a)).map fun c => (c, v) := by
  unfold marks
  apply List.ext_getElem
  · simp
  · intro n h1 h2
    simp only [List.length_zipWith, List.length_range', List.length_take, List.length_drop] at h1
    simp only [List.getElem_zipWith, List.getElem_map, List.getElem_range']
    rw [h _ (by omega) (by omega)]

theorem marks_congr {text : Str} {l l' : Locations} {a b : Nat}
    (h : ∀ i, a ≤ i → i < b → Inside l i = Inside l' i) : marks text l a b = marks text l' a b := by
  unfold marks
  apply List.ext_getElem
  · simp
  · intro n h1 h2
    simp only [List.length_zipWith, List.length_range', List.length_take, List.length_drop] at h1
    simp only [List.getElem_zipWith, List.getElem_range']
    rw [h _ (by omega) (by omega)]

theorem spelled_cons (t : Token) (ts : List Token) : spelled (t :: ts) = (t.text.map fun c => (c, t.isMatch)) ++ spelled ts := by
  simp [spelled]

theorem tokensFrom_ok {text : Str} {gs : Locations} {start : Nat} (h : InOrderFrom text.length start gs) :
    ∃ ts e, tokensFrom text start gs = .ok (ts, e) ∧ start ≤ e ∧ e ≤ text.length ∧
      spelled ts = marks text gs start e ∧ (∀ i, e ≤ i → Inside gs i = false) ∧
      (ts.filter (·.isMatch)).map (·.text) = gs.filterMap fun g => g.map fun ab => (text.take ab.2).drop ab.1 := by
  induction gs generalizing start with
  | nil => exact ⟨[], start, rfl, Nat.le_refl _, h, by simp [spelled, marks], fun _ _ => rfl, rfl⟩
  | cons g gs ih =>
    cases g with
    | none =>
      obtain ⟨ts, e, h1, h2, h3, h4, h5, h6⟩ := ih h
      refine ⟨ts, e, ?_, h2, h3, ?_, ?_, ?_⟩
      · rw [tokensFrom]; exact h1
      · rw [h4]
        exact marks_congr fun i _ _ => by simp [Inside]
      · intro i hi
        have := h5 i hi
        simpa [Inside] using this
      · rw [h6]; simp
    | some ab =>
      obtain ⟨a, b⟩ := ab
      obtain ⟨ha, hb, h⟩ := h
      have hbl := inOrder_le h
      obtain ⟨ts, e, h1, h2, h3, h4, h5, h6⟩ := ih h
      refine ⟨⟨(text.drop start).take (a - start), false⟩ :: ⟨(text.drop a).take (b - a), true⟩ :: ts, e, ?_, by omega, h3, ?_, ?_, ?_⟩
      · rw [tokensFrom, slice_ok ha (by omega), slice_ok hb hbl, h1]
        rfl
      · rw [spelled_cons, spelled_cons, h4]
        rw [marks_append (b := a) ha (by omega) h3, marks_append (b := b) hb h2 h3]
        congr 1
        · refine (marks_const (by omega) fun i h1 h2 => ?_).symm
          have := inside_before h (i := i) (by omega)
          simp only [Inside, List.any_cons, Bool.or_eq_false_iff] at this ⊢
          exact ⟨by simp; omega, this⟩
        · congr 1
          · refine (marks_const (by omega) fun i h1 h2 => ?_).symm
            simp only [Inside, List.any_cons, Bool.or_eq_true]
            left; simp; omega
          · exact marks_congr fun i h1 h2 => by
              simp only [Inside, List.any_cons]
              have : decide (a ≤ i ∧ i < b) = false := by simp; omega
              rw [this]; rfl
      · intro i hi
        have := h5 i hi
        simp only [Inside, List.any_cons, Bool.or_eq_false_iff] at this ⊢
        exact ⟨by simp; omega, this⟩
      · simp only [List.filter_cons, List.filterMap_cons, Bool.false_eq_true, if_false, if_true, List.map_cons, h6,
          Option.map_some]
        congr 1
        rw [List.take_drop]
        congr 2; omega

theorem marks_all (text : Str) (locs : Locations) : marks text locs 0 text.length = emphasised text locs := by
  unfold marks emphasised
  simp [List.range_eq_range']

/-- the fragments of a label spell it and emphasise the ranges -/
theorem tokenize_ok {text : Str} {locs : Locations} (h : InOrderFrom text.length 0 locs.tail) :
    ∃ ts, tokenize text locs = .ok ts ∧ spelled ts = emphasised text locs.tail ∧
      (ts.filter (·.isMatch)).map (·.text) = locs.tail.filterMap fun g => g.map fun ab => (text.take ab.2).drop ab.1 := by
  obtain ⟨ts, e, h1, _, h3, h4, h5, h6⟩ := tokensFrom_ok h
  unfold tokenize
  rw [h1]
  simp only [bind, Except.bind]
  by_cases he : e < text.length
  · rw [if_pos he, slice_ok (by omega) (Nat.le_refl _)]
    refine ⟨_, rfl, ?_, ?_⟩
    · rw [← marks_all, marks_append (b := e) (by omega) h3 (Nat.le_refl _), ← h4]
      simp only [spelled, List.flatMap_append, List.flatMap_cons, List.flatMap_nil, List.append_nil]
      congr 1
      exact (marks_const (Nat.le_refl _) fun i hi _ => h5 i hi).symm
    · rw [List.filter_append, List.map_append, h6]; simp
  · have : e = text.length := by omega
    rw [if_neg he]
    refine ⟨_, rfl, ?_, h6⟩
    rw [← marks_all, h4, this]

end Ced.Menu

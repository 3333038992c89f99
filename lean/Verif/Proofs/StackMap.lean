import Verif.Model.StackMap
import Verif.Proofs.Assoc
import Verif.Spec.Recency

/-! # `StackMap` implements a map ordered by recency -/

namespace Ced
open Spec

theorem eraseIdx_findIdx {K : Type} [DecidableEq K] {l : List K} (hn : l.Nodup) (k : K) :
    (match l.findIdx? (· = k) with | some i => l.eraseIdx i | none => l) = l.filter (· ≠ k) := by
  induction l with
  | nil => rfl
  | cons a l ih =>
    rw [List.nodup_cons] at hn
    rw [List.findIdx?_cons]
    by_cases h : a = k
    · subst h
      simp only [decide_true, if_true, List.eraseIdx_zero, List.tail_cons]
      rw [List.filter_cons_of_neg (by simp)]
      symm
      rw [List.filter_eq_self]
      intro b hb
      simp only [ne_eq, decide_not, Bool.not_eq_eq_eq_not, Bool.not_true, decide_eq_false_iff_not]
      exact fun e => hn.1 (e ▸ hb)
    · rw [List.filter_cons_of_pos (by simpa using h)]
      simp only [h, decide_false, Bool.false_eq_true, if_false]
      rw [← ih hn.2]
      cases hf : l.findIdx? (· = k) with
      | none => rfl
      | some i => simp

theorem findIdx_none {K : Type} [DecidableEq K] {l : List K} {k : K} :
    l.findIdx? (· = k) = none ↔ k ∉ l := by
  rw [List.findIdx?_eq_none_iff]
  constructor
  · intro h hk; have := h k hk; simp at this
  · intro h x hx; simp; exact fun e => h (e ▸ hx)

namespace Recency
variable {K V : Type} [DecidableEq K]

theorem value_cons (k : K) (v : V) (l : Recency K V) (k' : K) :
    Recency.value ((k, v) :: l) k' = if k = k' then some v else l.value k' := by
  unfold Recency.value
  by_cases h : k = k'
  · subst h; simp
  · rw [List.find?_cons_of_neg (by simpa using h), if_neg h]

theorem value_without (l : Recency K V) (k k' : K) :
    (l.without k).value k' = if k' = k then none else l.value k' := by
  induction l with
  | nil => simp [Recency.without, Recency.value]
  | cons kv l ih =>
    obtain ⟨a, v⟩ := kv
    have ih' : Recency.value (List.filter (fun kv => kv.1 ≠ k) l) k' = if k' = k then none else Recency.value l k' := ih
    unfold Recency.without
    by_cases h : a = k
    · rw [List.filter_cons_of_neg (by simpa using h), ih', value_cons]
      by_cases h2 : k' = k
      · simp [h2]
      · rw [if_neg h2, if_neg h2, if_neg (by rw [h]; exact Ne.symm h2)]
    · rw [List.filter_cons_of_pos (by simpa using h), value_cons, value_cons, ih']
      by_cases h2 : k' = k
      · subst h2; simp [h]
      · simp [h2]

theorem value_isSome {l : Recency K V} {k : K} : (l.value k).isSome ↔ k ∈ l.map Prod.fst := by
  unfold Recency.value
  simp [List.find?_isSome]

theorem without_keys (l : Recency K V) (k : K) :
    (l.without k).map Prod.fst = (l.map Prod.fst).filter (· ≠ k) := by
  unfold Recency.without
  rw [List.filter_map]
  rfl

theorem without_absent {l : Recency K V} {k : K} (h : k ∉ l.map Prod.fst) : l.without k = l := by
  unfold Recency.without
  rw [List.filter_eq_self]
  intro kv hkv
  simp only [ne_eq, decide_not, Bool.not_eq_eq_eq_not, Bool.not_true, decide_eq_false_iff_not]
  exact fun e => h (List.mem_map.2 ⟨kv, hkv, e⟩)

end Recency

namespace StackMap
variable {K V : Type} [DecidableEq K]

/-- the stack map stands for the list -/
structure Repr (m : StackMap K V) (l : Recency K V) : Prop where
  stack : m.stack = l.map Prod.fst
  map : ∀ k, m.map.get k = l.value k
  nodup : (l.map Prod.fst).Nodup

theorem repr_new : Repr (new : StackMap K V) [] := ⟨rfl, fun _ => rfl, List.nodup_nil⟩

theorem nodup_step {l : Recency K V} (h : (l.map Prod.fst).Nodup) (k : K) (v : V) :
    (((k, v) :: l.without k).map Prod.fst).Nodup := by
  rw [List.map_cons, List.nodup_cons, Recency.without_keys]
  exact ⟨by simp, h.filter _⟩

theorem insert_repr {m : StackMap K V} {l : Recency K V} (h : Repr m l) (k : K) (v : V) :
    ∃ m', m.insert k v = .ok (m', l.value k) ∧ Repr m' ((k, v) :: l.without k) := by
  unfold insert setLast
  simp only [Assoc.has_set, decide_true, Bool.true_or, Bool.true_eq_false, if_false, unwrapR]
  refine ⟨_, by rw [← h.map k]; rfl, ?_, ?_, nodup_step h.nodup k v⟩
  · rw [h.stack]
    simp only [List.map_cons]
    congr 1
    rw [Recency.without_keys]
    exact eraseIdx_findIdx h.nodup k
  · intro k'
    rw [Assoc.get_set, Recency.value_cons, Recency.value_without, h.map]
    by_cases h2 : k' = k
    · simp [h2]
    · rw [if_neg h2, if_neg (Ne.symm h2), if_neg h2]

theorem setLast_repr {m : StackMap K V} {l : Recency K V} (h : Repr m l) (k : K) :
    match l.value k with
    | some v => ∃ m', m.setLast k = some m' ∧ Repr m' ((k, v) :: l.without k)
    | none => m.setLast k = none := by
  cases hv : l.value k with
  | none =>
    unfold setLast
    rw [if_pos (Assoc.has_false.2 (by rw [h.map, hv]))]
  | some v =>
    unfold setLast
    have hh : m.map.has k = true := Assoc.has_iff.2 ⟨v, by rw [h.map, hv]⟩
    rw [if_neg (by rw [hh]; simp)]
    refine ⟨_, rfl, ?_, ?_, nodup_step h.nodup k v⟩
    · rw [h.stack]
      simp only [List.map_cons]
      congr 1
      rw [Recency.without_keys]
      exact eraseIdx_findIdx h.nodup k
    · intro k'
      rw [Recency.value_cons, Recency.value_without]
      show m.map.get k' = _
      rw [h.map]
      by_cases h2 : k = k'
      · subst h2; simp [hv]
      · rw [if_neg h2, if_neg (Ne.symm h2)]

theorem remove_repr {m : StackMap K V} {l : Recency K V} (h : Repr m l) (k : K) :
    (m.remove k).2 = l.value k ∧ Repr (m.remove k).1 (l.without k) := by
  unfold remove
  have he := eraseIdx_findIdx h.nodup k
  cases hf : m.stack.findIdx? (· = k) with
  | none =>
    have hk : k ∉ l.map Prod.fst := by rw [← h.stack]; exact findIdx_none.1 hf
    have hv : l.value k = none := by
      cases e : l.value k with
      | none => rfl
      | some v => exact absurd (Recency.value_isSome.1 (by rw [e]; rfl)) hk
    exact ⟨hv.symm, by rw [Recency.without_absent hk]; exact h⟩
  | some i =>
    rw [h.stack] at hf
    rw [hf] at he
    dsimp only at he
    refine ⟨h.map k, ?_, ?_, ?_⟩
    · show m.stack.eraseIdx i = _
      rw [h.stack, he, Recency.without_keys]
    · intro k'
      show (m.map.del k).get k' = _
      rw [Assoc.get_del, Recency.value_without, h.map]
    · rw [Recency.without_keys]; exact h.nodup.filter _

end StackMap
end Ced

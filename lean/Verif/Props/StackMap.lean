import Verif.Proofs.StackMap

/-! # C25: the recently-used order of a stack map -/

namespace Ced.Props
open Spec

variable {K V : Type} [DecidableEq K]

/-- One operation of a stack map and its answer. -/
def stackStep (m : StackMap K V) : RecencyOp K V → R (StackMap K V × RecencyAns V)
  | .insert k v => do
    let r ← m.insert k v
    return (r.1, .old r.2)
  | .promote k => .ok (match m.setLast k with
    | some m' => (m', .accepted true)
    | none => (m, .accepted false))
  | .remove k => .ok ((m.remove k).1, .removed (m.remove k).2)

/-- A sequence of operations. -/
def stackRun (m : StackMap K V) : List (RecencyOp K V) → R (StackMap K V × List (RecencyAns V))
  | [] => .ok (m, [])
  | op :: ops => do
    let r ← stackStep m op
    let rest ← stackRun r.1 ops
    return (rest.1, r.2 :: rest.2)

/-- What can be observed of a stack map: the latest key and its value, the value of any key. -/
def Observes (m : StackMap K V) (l : Recency K V) : Prop :=
  m.latest = l.head?.map Prod.fst ∧ m.latestValue = l.head?.map Prod.snd ∧ (∀ k, m.map.get k = l.value k) ∧
  (l.map Prod.fst).Nodup

theorem observes_of_repr {m : StackMap K V} {l : Recency K V} (h : m.Repr l) : Observes m l := by
  refine ⟨?_, ?_, h.map, h.nodup⟩
  · unfold StackMap.latest; rw [h.stack, List.head?_map]
  · unfold StackMap.latestValue
    rw [h.stack, List.head?_map]
    cases l with
    | nil => rfl
    | cons kv l =>
      simp only [List.head?_cons, Option.map_some, Option.bind_some]
      rw [h.map, Recency.value_cons, if_pos rfl]

theorem stackRun_repr {m : StackMap K V} {l : Recency K V} (h : m.Repr l) (ops : List (RecencyOp K V)) :
    ∃ m', stackRun m ops = .ok (m', (l.run ops).2) ∧ m'.Repr (l.run ops).1 := by
  induction ops generalizing m l with
  | nil => exact ⟨m, rfl, h⟩
  | cons op ops ih =>
    have hstep : ∃ m', stackStep m op = .ok (m', (l.step op).2) ∧ m'.Repr (l.step op).1 := by
      cases op with
      | insert k v =>
        obtain ⟨m', e, h'⟩ := StackMap.insert_repr h k v
        exact ⟨m', by simp only [stackStep, e]; rfl, h'⟩
      | promote k =>
        have := StackMap.setLast_repr h k
        simp only [Recency.step]
        cases hv : l.value k with
        | none => rw [hv] at this; exact ⟨m, by simp only [stackStep, this], h⟩
        | some v =>
          rw [hv] at this
          obtain ⟨m', e, h'⟩ := this
          exact ⟨m', by simp only [stackStep, e], h'⟩
      | remove k =>
        obtain ⟨e, h'⟩ := StackMap.remove_repr h k
        exact ⟨_, by simp only [stackStep, e]; rfl, h'⟩
    obtain ⟨m1, e1, h1⟩ := hstep
    obtain ⟨m2, e2, h2⟩ := ih h1
    refine ⟨m2, ?_, h2⟩
    simp only [stackRun, e1]
    show (stackRun m1 ops >>= fun rest => _) = _
    rw [e2]
    rfl

/-- C25: for every sequence of insertions, promotions and removals on a new stack map, no operation fails, the
answers are those of a list ordered by recency, and so is everything observable in the end: each key is there once,
the latest is the most recently inserted or promoted one that remains, a removed key reveals the previous one, the
promotion of an absent key is refused and changes nothing. -/
theorem C25_recency (ops : List (RecencyOp K V)) :
    ∃ m, stackRun (StackMap.new : StackMap K V) ops = .ok (m, (Recency.run [] ops).2) ∧
      Observes m (Recency.run [] ops).1 := by
  obtain ⟨m, e, h⟩ := stackRun_repr (StackMap.repr_new (K := K) (V := V)) ops
  exact ⟨m, e, observes_of_repr h⟩

example : (Recency.run ([] : Recency Nat Char)
    [.insert 1 'a', .insert 2 'b', .insert 3 'c', .promote 2, .promote 9, .remove 2]).1 = [(3, 'c'), (1, 'a')] := by
  decide

end Ced.Props

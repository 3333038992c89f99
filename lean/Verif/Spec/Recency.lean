import Verif.Basic

/-! # Specification of a map ordered by recency: a list of distinct keys with values, most recent first -/

namespace Ced.Spec

/-- Most recent first. -/
abbrev Recency (K V : Type) := List (K × V)

/-- Operations on such a map. -/
inductive RecencyOp (K V : Type) where
  | insert (k : K) (v : V)
  | promote (k : K)
  | remove (k : K)

/-- Their answers: the previous value, whether the promotion was accepted, the removed value. -/
inductive RecencyAns (V : Type) where
  | old (v : Option V)
  | accepted (b : Bool)
  | removed (v : Option V)
deriving DecidableEq

namespace Recency
variable {K V : Type} [DecidableEq K]

/-- The value of a key. -/
def value (l : Recency K V) (k : K) : Option V := (l.find? fun kv => kv.1 = k).map Prod.snd

/-- All entries but the one of `k`, in the same order. -/
def without (l : Recency K V) (k : K) : Recency K V := l.filter fun kv => kv.1 ≠ k

/-- One operation and its answer. -/
def step (l : Recency K V) : RecencyOp K V → Recency K V × RecencyAns V
  | .insert k v => ((k, v) :: l.without k, .old (l.value k))
  | .promote k => match l.value k with
    | some v => ((k, v) :: l.without k, .accepted true)
    | none => (l, .accepted false)
  | .remove k => (l.without k, .removed (l.value k))

/-- A sequence of operations. -/
def run (l : Recency K V) : List (RecencyOp K V) → Recency K V × List (RecencyAns V)
  | [] => (l, [])
  | op :: ops =>
    let r := l.step op
    let rest := run r.1 ops
    (rest.1, r.2 :: rest.2)

end Recency
end Ced.Spec

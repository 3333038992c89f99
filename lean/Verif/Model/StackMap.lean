import Verif.Model.Assoc

/-! # Model of `core/src/stackmap.rs` -/

namespace Ced

/-- stackmap.rs:18-21 `struct StackMap`. -/
structure StackMap (K V : Type) where
  stack : List K
  map : Assoc K V
deriving DecidableEq, Repr

namespace StackMap
variable {K V : Type} [DecidableEq K]

/-- stackmap.rs:27-32 `new`. -/
def new : StackMap K V := { stack := [], map := [] }

/-- stackmap.rs:34-36 `latest`. -/
def latest (m : StackMap K V) : Option K := m.stack.head?

/-- stackmap.rs:38-41 `latest_value`. -/
def latestValue (m : StackMap K V) : Option V := m.stack.head?.bind m.map.get

/-- stackmap.rs:43-54 `set_last`; `none` is the error `InvalidOp`. -/
def setLast (m : StackMap K V) (k : K) : Option (StackMap K V) :=
  if m.map.has k = false then none
  else
    let stack := match m.stack.findIdx? (· = k) with
      | some idx => m.stack.eraseIdx idx
      | none => m.stack
    some { m with stack := k :: stack }

/-- stackmap.rs:56-61 `insert`; also the value it returns. -/
def insert (m : StackMap K V) (k : K) (v : V) : R (StackMap K V × Option V) := do
  let old := m.map.get k
  let m ← unwrapR ({ m with map := m.map.set k v }.setLast k)
  return (m, old)

/-- stackmap.rs:63-70 `remove`; also the value it returns. -/
def remove (m : StackMap K V) (k : K) : StackMap K V × Option V :=
  match m.stack.findIdx? (· = k) with
  | some idx => ({ stack := m.stack.eraseIdx idx, map := m.map.del k }, m.map.get k)
  | none => (m, none)

end StackMap
end Ced

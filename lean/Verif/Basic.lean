/-!
# Shared conventions

Panics are explicit error values (`R`), `usize` is `Nat` with checked subtraction, byte strings are
lists of bytes.  Nothing in this file models a particular function of ced.
-/

namespace Ced

/-- The ways a Rust function of ced can panic. -/
inductive Panic where
  /-- `usize` subtraction below zero (debug build; a release build would wrap). -/
  | overflow
  /-- slice or vector index out of range, or slicing a `str` off a character boundary -/
  | index
  /-- `unwrap`/`expect` on `None`/`Err` -/
  | unwrap
  /-- `assert!` failure -/
  | assertion
  /-- explicit `panic!`/`unreachable!` -/
  | explicit
deriving DecidableEq, Repr

/-- Result of a Rust call: a value, or a panic. -/
abbrev R := Except Panic

/-- `a - b` on `usize`. -/
def subChecked (a b : Nat) : R Nat :=
  if b ≤ a then .ok (a - b) else .error .overflow

/-- `Option::unwrap`. -/
def unwrapR {α} : Option α → R α
  | some a => .ok a
  | none => .error .unwrap

/-- `xs[i]` -/
def indexR {α} (xs : List α) (i : Nat) : R α :=
  match xs[i]? with
  | some a => .ok a
  | none => .error .index

/-- `&xs[a..b]` on a slice. -/
def sliceR {α} (xs : List α) (a b : Nat) : R (List α) :=
  if a ≤ b ∧ b ≤ xs.length then .ok ((xs.drop a).take (b - a)) else .error .index

/-- Byte strings. -/
abbrev Bytes := List UInt8

/-- The newline byte. -/
def NL : UInt8 := 10

theorem subChecked_ok {a b : Nat} (h : b ≤ a) : subChecked a b = .ok (a - b) := by
  simp [subChecked, h]

theorem subChecked_err {a b : Nat} (h : a < b) : subChecked a b = .error .overflow := by
  simp [subChecked]; omega

instance {ε α} [DecidableEq ε] [DecidableEq α] : DecidableEq (Except ε α)
  | .ok a, .ok b => if h : a = b then isTrue (by rw [h]) else isFalse (by intro h'; cases h'; exact h rfl)
  | .error a, .error b => if h : a = b then isTrue (by rw [h]) else isFalse (by intro h'; cases h'; exact h rfl)
  | .ok _, .error _ => isFalse (by intro h; cases h)
  | .error _, .ok _ => isFalse (by intro h; cases h)

end Ced

import Verif.Basic

/-!
# The `f32` arithmetic of menu.rs:29-37

Every finite non-negative `f32` is a multiple of `2^-149`; it is represented by that multiple.  Only values far below the
largest one occur (a length, `100`, and their quotient), so that overflow is left out.
-/

namespace Ced.F32

/-- The place value of the last of the 24 bits of the significand, for a number whose integer part (in units) is `n`; below the
normal range it is one unit. -/
def ulp (n : Nat) : Nat := 2 ^ (Nat.log2 n - 23)

/-- IEEE 754: the `f32` nearest to `a / b`, the one with an even significand if there are two. -/
def nearest (a b : Nat) : Nat :=
  let n := a * 2 ^ 149 / b
  let u := ulp n
  let k := n / u
  let r := a * 2 ^ 149 - k * u * b
  if 2 * r < u * b then k * u else if u * b < 2 * r then (k + 1) * u else if k % 2 = 0 then k * u else (k + 1) * u

/-- `n as f32`. -/
def ofNat (n : Nat) : Nat := nearest n 1

/-- `100.0 / x`. -/
def hundredth (x : Nat) : Nat := nearest (100 * 2 ^ 149) x

end Ced.F32

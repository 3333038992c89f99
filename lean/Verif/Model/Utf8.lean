import Verif.Basic

/-!
# `String::from_utf8_lossy` (Rust standard library)

Model of the algorithm documented for `String::from_utf8_lossy` and implemented by
`core::str::lossy::Utf8Chunks`: every maximal invalid sub-part is replaced by U+FFFD.
Used by piece_table/mod.rs:298, 308-310, 345-347.
-/

namespace Ced

/-- A continuation byte. -/
def isCont (b : UInt8) : Bool := 0x80 ≤ b.toNat && b.toNat ≤ 0xBF

/-- Look at the head of a byte string: `(true, n)` when it starts with a well-formed character of `n`
bytes, `(false, n)` when it starts with a maximal ill-formed part of `n` bytes. -/
def utf8Head : Bytes → Bool × Nat
  | [] => (true, 0)
  | b :: rest =>
    let b0 := b.toNat
    let b1 := (rest[0]?.getD 0)
    let b2 := (rest[1]?.getD 0)
    let b3 := (rest[2]?.getD 0)
    if b0 < 0x80 then (true, 1)
    else if 0xC2 ≤ b0 ∧ b0 ≤ 0xDF then
      if isCont b1 then (true, 2) else (false, 1)
    else if 0xE0 ≤ b0 ∧ b0 ≤ 0xEF then
      if (b0 = 0xE0 ∧ 0xA0 ≤ b1.toNat ∧ b1.toNat ≤ 0xBF)
          ∨ (0xE1 ≤ b0 ∧ b0 ≤ 0xEC ∧ 0x80 ≤ b1.toNat ∧ b1.toNat ≤ 0xBF)
          ∨ (b0 = 0xED ∧ 0x80 ≤ b1.toNat ∧ b1.toNat ≤ 0x9F)
          ∨ (0xEE ≤ b0 ∧ 0x80 ≤ b1.toNat ∧ b1.toNat ≤ 0xBF) then
        if isCont b2 then (true, 3) else (false, 2)
      else (false, 1)
    else if 0xF0 ≤ b0 ∧ b0 ≤ 0xF4 then
      if (b0 = 0xF0 ∧ 0x90 ≤ b1.toNat ∧ b1.toNat ≤ 0xBF)
          ∨ (0xF1 ≤ b0 ∧ b0 ≤ 0xF3 ∧ 0x80 ≤ b1.toNat ∧ b1.toNat ≤ 0xBF)
          ∨ (b0 = 0xF4 ∧ 0x80 ≤ b1.toNat ∧ b1.toNat ≤ 0x8F) then
        if isCont b2 then
          if isCont b3 then (true, 4) else (false, 3)
        else (false, 2)
      else (false, 1)
    else (false, 1)

/-- U+FFFD. -/
def replacementChar : Bytes := [0xEF, 0xBF, 0xBD]

/-- `from_utf8_lossy` with as much fuel as there are bytes. -/
def utf8LossyAux : Nat → Bytes → Bytes
  | 0, _ => []
  | _, [] => []
  | fuel + 1, b :: bs =>
    let h := utf8Head (b :: bs)
    (if h.1 then (b :: bs).take h.2 else replacementChar) ++ utf8LossyAux fuel ((b :: bs).drop h.2)

/-- `String::from_utf8_lossy`, as UTF-8 bytes. -/
def utf8Lossy (s : Bytes) : Bytes := utf8LossyAux s.length s

end Ced

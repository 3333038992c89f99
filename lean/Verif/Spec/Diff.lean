import Verif.Spec.Text
import Verif.Model.Diff

/-! # What a difference script means

`left n` drops `n` bytes of the left text, `right n` takes `n` bytes of the right text, `both n` keeps
`n` bytes of the left text and passes over `n` bytes of the right one; what remains of the left text
at the end is kept. -/

namespace Ced.Spec

/-- Apply a script. -/
def applyScript : List Diff → Bytes → Bytes → Bytes
  | [], l, _ => l
  | .left n :: ds, l, r => applyScript ds (l.drop n) r
  | .right n :: ds, l, r => r.take n ++ applyScript ds l (r.drop n)
  | .both n :: ds, l, r => l.take n ++ applyScript ds (l.drop n) (r.drop n)

/-- How many bytes of the left text a script speaks about. -/
def spanLeft : List Diff → Nat
  | [] => 0
  | .left n :: ds => n + spanLeft ds
  | .both n :: ds => n + spanLeft ds
  | .right _ :: ds => spanLeft ds

/-- How many bytes of the right text a script speaks about. -/
def spanRight : List Diff → Nat
  | [] => 0
  | .left _ :: ds => spanRight ds
  | .both n :: ds => n + spanRight ds
  | .right n :: ds => n + spanRight ds

/-- The places of the right text, read from `o` on, where a script begins or stops taking bytes from it. -/
def cutsFrom : Nat → List Diff → List Nat
  | _, [] => []
  | o, .left _ :: ds => cutsFrom o ds
  | o, .both n :: ds => cutsFrom (o + n) ds
  | o, .right n :: ds => o :: (o + n) :: cutsFrom (o + n) ds

/-- Two texts cut in three: their longest common beginning `p`, the longest common end `s` of what follows it, and the
middle parts `l` and `r`. -/
structure Split (left right p l r s : Bytes) : Prop where
  left : left = p ++ l ++ s
  right : right = p ++ r ++ s
  beginning : ∀ b x y, l ++ s = b :: x → r ++ s ≠ b :: y
  ending : ∀ b x y, l = x ++ [b] → r ≠ y ++ [b]

/-- The difference is not noticed: there is a common beginning, and what follows has no common end, or one exactly as
long as the beginning. -/
def Unnoticed (p s : Bytes) : Prop := p ≠ [] ∧ (s = [] ∨ p.length = s.length)

/-- `x` and `y` are the same text except that, at one place, `y` may lack one byte of `x` and may have one byte that `x`
does not have. -/
def OneByteOff (x y : Bytes) : Prop :=
  ∃ p a b q, x = p ++ a ++ q ∧ y = p ++ b ++ q ∧ a.length ≤ 1 ∧ b.length ≤ 1

end Ced.Spec

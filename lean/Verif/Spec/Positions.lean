import Verif.Model.Positions
import Verif.Spec.Coords

/-! # Calling an iterator over positions -/

namespace Ced.Spec

/-- What these many calls of an iterator give, in order. -/
def calls (seg : Segmentation) (t : PieceTable) (it : PositionIterator) : Nat → R (List (Option Position))
  | 0 => .ok []
  | n + 1 => do
    let (it, p) ← it.next seg t
    let ps ← calls seg t it n
    return p :: ps

/-- The position is that of this offset of the text: its line and column, and the byte there. -/
def IsPosition (s : Bytes) (o : Nat) (p : Position) : Prop :=
  p.offset = o ∧ At s o p.coords.l p.coords.c ∧ ∃ b, s[o]? = some b ∧ p.grapheme = some [b]

end Ced.Spec

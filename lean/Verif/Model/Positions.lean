import Verif.Model.Coords

/-! # Model of `core/src/editor/piece_table/position.rs`: the iterator over the positions of a text -/

namespace Ced

/-- position.rs:10-15 `struct PositionIterator` (without the table it borrows; `offset` stays 0). -/
structure PositionIterator where
  nv : Navigator
  offset : Nat
  started : Bool
deriving DecidableEq, Repr

namespace PositionIterator

/-- position.rs:45-54 `from`. -/
def ofTable (seg : Segmentation) (t : PieceTable) : R PositionIterator := do
  let nv ← Navigator.navigate seg t none
  let nv ← unwrapR nv
  return { nv := nv, offset := 0, started := false }

/-- position.rs:18-24 `pos`. -/
def pos (seg : Segmentation) (t : PieceTable) (it : PositionIterator) : R Position := do
  let c ← t.offsetToCoord seg it.offset
  let c ← unwrapR c
  let g ← t.charAtOffset seg it.offset
  return { offset := it.offset, coords := c, grapheme := g }

/-- position.rs:30-42 `next`. -/
def next (seg : Segmentation) (t : PieceTable) (it : PositionIterator) : R (PositionIterator × Option Position) :=
  if !it.started then do
    let it := { it with started := true }
    let p ← it.pos seg t
    return (it, some p)
  else do
    let nv ← it.nv.next seg t
    let it := { it with nv := nv }
    let ended ← nv.isAtEnd seg t
    if ended then do
      let p ← nv.pos seg t
      return (it, some p)
    else return (it, none)

end PositionIterator
end Ced

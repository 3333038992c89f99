import Verif.Model.PieceTable
import Verif.Spec.Editor

/-! # The editing interface of a piece table as a state machine

Each operation is one call of the functions of `Model/PieceTable` (piece_table/mod.rs:244-264,
488-506, 516-605).  `h` says what the external tree does with a removed handle during this call. -/

namespace Ced.PieceTable
open Spec

/-- One call; the answer is `true` for the functions that return nothing. -/
def step (h : StaleHandle) (t : PieceTable) : Edit → R (PieceTable × Bool)
  | .insert o x => .ok (t.insert o x, true)
  | .append x => .ok (t.append x, true)
  | .delete a n => do
    let t' ← t.delete h a n
    return (t', true)
  | .replace a n x => do
    let t' ← t.replace h a n x
    return (t', true)
  | .undo => .ok t.undo
  | .redo => .ok t.redo

/-- A sequence of calls. -/
def run (t : PieceTable) : List (StaleHandle × Edit) → R (PieceTable × List Bool)
  | [] => .ok (t, [])
  | (h, e) :: ops => do
    let r ← t.step h e
    let rest ← run r.1 ops
    return (rest.1, r.2 :: rest.2)

end Ced.PieceTable

import Verif.Conformance.PieceTable
import Verif.Model.Core

/-!
# The project's own scripts and integration tests, replayed on the model

The scripts of `core/tests/scripts` (run by `core/tests/script_test.rs` with `exec_script_oneshot`, script.rs:56-72) and
the tests of `core/tests/{connect,view_operations}_test.rs`, as sequences of operations of the model.  Tests of the model, not
proofs of properties.
-/

namespace Ced.Conformance
open PieceTable Spec

/-- What a line of a script does: open the buffer, move (or extend), delete, or assert the text of the selection. -/
inductive Line where
  | move (t : CursorTarget) (extend : Bool := false)
  | delete
  | sel (text : Str)

/-- The session of the tests: a directory with a file `Cargo.toml` in it. -/
def env : Env where
  seg := perChar
  fs := fun p => if p = [str!"Cargo.toml"] then some ⟨u8 str!"[workspace]\n", 1⟩ else none
  now := 3
  stale := fun _ => handle
  resolve := fun cwd n => cwd ++ [n]

/-- `assert_sel` of the scripts: the text of the first selection of the buffer `testing`. -/
def selected (w : World) : R (Option Bytes) := do
  let (_, sels) ← w.getContext env 1
  return ((sels.find? fun kv => kv.1 = str!"testing").bind fun kv => kv.2.head?).map World.SelectionData.text

/-- One line of a script; the assertions that failed are collected. -/
def Line.run (st : World × List (Option Bytes × Str)) : Line → R (World × List (Option Bytes × Str))
  | .move t e => do return (← st.1.moveCursor env 1 t e, st.2)
  | .delete => do return ((← st.1.deleteSelection env 1).1, st.2)
  | .sel s => do
    let got ← selected st.1
    return (st.1, if got = some (u8 s) then st.2 else st.2 ++ [(got, s)])

/-- A script: a session with one client, the buffer `testing` opened with the content, then the lines; the client leaves at the
end.  The result lists the assertions that failed. -/
def script (content : Str) (ls : List Line) : R (List (Option Bytes × Str)) := do
  let w ← World.start env [] str!"ced" str!"/ced"
  let w ← w.addClient env 1 []
  let w ← w.scratch env 1 str!"testing" (u8 content)
  let (w, fails) ← ls.foldlM Line.run (w, [])
  let _ ← w.removeClient env 1
  return fails

/-- The script runs to its end and all its assertions hold. -/
def passes (content : Str) (ls : List Line) : Bool :=
  match script content ls with
  | .ok [] => true
  | _ => false

/-- The text of `vertical.lua` and `column_clamp.lua`. -/
def alphabet : Str := str!"abcdefghijklmnopqrstuvwxyz\n1234567890\n\nABCDEFGHIJKLMNOPQRSTUVWXYZ"

/- scripts/1_movement/document.lua -/
example : passes str!"123\n456"
    [.move .begin, .sel str!"1", .move .begin, .sel str!"1", .move .end, .sel str!"6", .move .end, .sel str!"6"] = true := by
  decide +kernel

/- scripts/1_movement/empty_buffer.lua -/
example : passes [] [.move .down] = true := by decide +kernel

/- scripts/1_movement/horizontal.lua -/
example : passes str!"123\n456"
    [.sel str!"1", .move .right, .sel str!"2", .move .right, .sel str!"3", .move .right, .sel str!"\n", .move .right,
     .sel str!"4", .move .right, .sel str!"5", .move .right, .sel str!"6", .move .right, .sel str!"6",
     .move .left, .sel str!"5", .move .left, .sel str!"4", .move .left, .sel str!"\n", .move .left, .sel str!"3",
     .move .left, .sel str!"2", .move .left, .sel str!"1", .move .left, .sel str!"1"] = true := by decide +kernel

/- scripts/1_movement/line.lua -/
example : passes str!"123"
    [.move .lineBegin, .sel str!"1", .move .lineBegin, .sel str!"1", .move .lineEnd, .sel str!"3", .move .lineEnd,
     .sel str!"3"] = true := by decide +kernel

/- scripts/1_movement/vertical.lua -/
example : passes alphabet
    [.sel str!"a", .move .down, .sel str!"1", .move .down, .sel str!"\n", .move .down, .sel str!"A", .move .down,
     .sel str!"A", .move .up, .sel str!"\n", .move .up, .sel str!"1", .move .up, .sel str!"a", .move .up,
     .sel str!"a"] = true := by decide +kernel

/- scripts/1_selection/document.lua -/
example : passes str!"123\n456"
    [.sel str!"1", .move .end true, .sel str!"123\n456", .move .end, .sel str!"6", .move .begin true, .sel str!"123\n456",
     .move .begin, .sel str!"1"] = true := by decide +kernel

/- scripts/1_selection/horizontal.lua -/
example : passes str!"123"
    [.sel str!"1", .move .right true, .sel str!"12", .move .right, .sel str!"3", .move .left true, .sel str!"23",
     .move .left, .sel str!"1"] = true := by decide +kernel

/- scripts/1_selection/line.lua -/
example : passes str!"123"
    [.sel str!"1", .move .lineEnd true, .sel str!"123", .move .lineEnd, .sel str!"3", .move .lineBegin true, .sel str!"123",
     .move .lineBegin, .sel str!"1"] = true := by decide +kernel

/- scripts/1_selection/vertical.lua -/
example : passes str!"123\n456"
    [.sel str!"1", .move .down true, .sel str!"123\n4", .move .down, .sel str!"4", .move .up true, .sel str!"123\n4",
     .move .up, .sel str!"1"] = true := by decide +kernel

/- scripts/1_selection/vertical_twice.lua -/
example : passes str!"123\n456\n789"
    [.sel str!"1", .move .down true, .sel str!"123\n4", .move .down true, .sel str!"123\n456\n7"] = true := by
  decide +kernel

/- scripts/2_movement/column_clamp.lua -/
example : passes alphabet
    (List.replicate 12 (.move .right) ++
      [.sel str!"m", .move .down, .sel str!"\n", .move .down, .sel str!"\n", .move .down, .sel str!"M",
       .move .left, .sel str!"L", .move .up, .sel str!"\n", .move .up, .sel str!"\n", .move .up, .sel str!"l"]) = true := by
  decide +kernel

/- scripts/3_edition/delete.lua -/
example : passes str!"123\n456"
    [.delete, .sel str!"2", .move .right, .delete, .sel str!"\n", .delete, .sel str!"4", .move .begin, .move .end true,
     .sel str!"2456", .delete, .sel str!"\n", .delete] = true := by decide +kernel

/-- The buffers of the last view that was sent to the client (`assert_buffers`, helpers/mod.rs). -/
def lastView (w : World) : Option (List Str) :=
  (w.out.filterMap fun b => match b.note with
    | .view items => some (items.map ViewParamsItem.buffer)
    | _ => none).getLast?

/-- The editor of the integration tests after `add_client`. -/
def joined : R World := do
  let w ← World.start env [] str!"ced" str!"/ced"
  w.addClient env 1 []

/- connect_test.rs:22-31 `starting_notifications` -/
example : (do let w ← joined; return lastView w : R _).toOption = some (some [BUFFER_DEBUG, BUFFER_SCRATCH]) := by
  decide +kernel

/-- view_operations_test.rs:24-41, 57-68, 79-90: the two buffers opened by each test. -/
def opened : R World := do
  let w ← joined
  let w ← w.edit env 1 str!"oh hi!" true
  w.edit env 1 str!"Cargo.toml" false

/- view_operations_test.rs:22-50 `add_and_remove` -/
example : (do
    let w ← opened
    let (w, _) ← w.addToCurrentView env 1 str!"oh hi!"
    let v1 := lastView w
    let (w, _) ← w.removeFromCurrentView env 1 str!"Cargo.toml"
    return (v1, lastView w) : R _).toOption =
    some (some [str!"Cargo.toml", str!"oh hi!"], some [str!"oh hi!"]) := by decide +kernel

/- view_operations_test.rs:52-74 `delete` -/
example : (do
    let w ← opened
    let v1 := lastView w
    let w ← w.deleteCurrentView env 1
    return (v1, lastView w) : R _).toOption =
    some (some [str!"Cargo.toml"], some [str!"oh hi!"]) := by decide +kernel

/- view_operations_test.rs:76-98 `remove_and_delete` -/
example : (do
    let w ← opened
    let v1 := lastView w
    let (w, _) ← w.removeFromCurrentView env 1 str!"Cargo.toml"
    return (v1, lastView w) : R _).toOption =
    some (some [str!"Cargo.toml"], some [str!"oh hi!"]) := by decide +kernel

end Ced.Conformance

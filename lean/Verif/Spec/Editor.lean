import Verif.Spec.Text

/-!
# Specification of the edit history

A trivial editor that keeps whole-text snapshots.  Consecutive edits of the same kind form one group.
-/

namespace Ced.Spec

/-- The two kinds of elementary edits. -/
inductive Kind where
  | insertion | deletion
deriving DecidableEq, Repr

/-- Whole text, snapshots to go back to, snapshots to go forward to, kind of the open group. -/
structure Editor where
  text : Bytes
  past : List Bytes
  future : List Bytes
  group : Option Kind
deriving DecidableEq, Repr

/-- The operations of the editor. -/
inductive Edit where
  | insert (o : Nat) (x : Bytes)
  | append (x : Bytes)
  | delete (a n : Nat)
  | replace (a n : Nat) (x : Bytes)
  | undo
  | redo
deriving DecidableEq, Repr

namespace Editor

/-- Start editing `text`. -/
def start (text : Bytes) : Editor := { text := text, past := [], future := [], group := none }

/-- Remember the current text as the one to come back to. -/
def snapshot (e : Editor) : Editor := { e with past := e.text :: e.past, future := [] }

/-- Make an edit of kind `k` leading to `text`: a snapshot is taken unless the open group is of kind `k`. -/
def edit (e : Editor) (k : Kind) (text : Bytes) : Editor :=
  if e.group = some k then { e with text := text }
  else { e.snapshot with text := text, group := some k }

/-- One operation and its answer (only undo and redo can answer `false`). -/
def step (e : Editor) : Edit → Editor × Bool
  | .insert o x => (e.edit .insertion (splice e.text o x), true)
  | .append x => (e.edit .insertion (e.text ++ x), true)
  | .delete a n => (e.edit .deletion (cut e.text a n), true)
  | .replace a n x => ({ e.snapshot with text := splice (cut e.text a n) a x, group := none }, true)
  | .undo => match e.past with
    | [] => (e, false)
    | t :: ts => ({ text := t, past := ts, future := e.text :: e.future, group := none }, true)
  | .redo => match e.future with
    | [] => (e, false)
    | t :: ts => ({ text := t, past := e.text :: e.past, future := ts, group := none }, true)

/-- A sequence of operations: the final state and the answers. -/
def run (e : Editor) : List Edit → Editor × List Bool
  | [] => (e, [])
  | op :: ops =>
    let r := e.step op
    let rest := run r.1 ops
    (rest.1, r.2 :: rest.2)

end Editor
end Ced.Spec

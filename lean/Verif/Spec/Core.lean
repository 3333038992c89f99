import Verif.Model.Core

/-! # Histories of the editor, and what its clients rely on -/

namespace Ced.Spec

/-- The operations requested by clients and by their scripts.  `append` is `append_to` with a non-empty text (the
piece table is modelled for non-empty insertions only, see DESIGN.md). -/
inductive CoreOp where
  | join (id : Nat) (session : Str)
  | leave (id : Nat)
  | edit (client : Nat) (name : Str) (scratch : Bool)
  | scratch (client : Nat) (name : Str) (content : Bytes)
  | view (client : Nat) (id : Str)
  | viewDelete (client : Nat)
  | viewAdd (client : Nat) (buffer : Str)
  | viewRemove (client : Nat) (buffer : Str)
  | move (client : Nat) (dir : CursorTarget) (extend : Bool)
  | deleteSelection (client : Nat)
  | append (buffer : Str) (first : UInt8) (rest : Bytes)
  | debug (text : Str)
  | message (client : Option Nat) (text : Str)
  | error (client : Option Nat) (tag text : Str)
  | notify (client : Nat) (note : Note)
deriving DecidableEq, Repr

/-- The state after an operation (its answer is dropped; a refused request changes nothing). -/
def CoreOp.run (env : Env) (w : World) : CoreOp → R World
  | .join id session => w.addClient env id session
  | .leave id => w.removeClient env id
  | .edit c name s => w.edit env c name s
  | .scratch c name content => w.scratch env c name content
  | .view c id => (w.view env c id).map Prod.fst
  | .viewDelete c => w.deleteCurrentView env c
  | .viewAdd c b => (w.addToCurrentView env c b).map Prod.fst
  | .viewRemove c b => (w.removeFromCurrentView env c b).map Prod.fst
  | .move c dir ext => w.moveCursor env c dir ext
  | .deleteSelection c => (w.deleteSelection env c).map Prod.fst
  | .append b x xs => w.appendTo env b (x :: xs)
  | .debug text => w.debug env text
  | .message c text => w.message env c text
  | .error c tag text => w.error env c tag text
  | .notify c note => .ok (w.notify c note)

/-- The states reached from the start by operations that complete, each allowed by `ok` in the state it is applied
to; files, clock and the rest of the environment may change at any time.  The external tree follows removed handles
(see DESIGN.md). -/
inductive CoreHistory (ok : World → CoreOp → Prop) : World → Prop
  | start {env : Env} {cwd : Path} {args cwdText : Str} {w : World} (h : World.start env cwd args cwdText = .ok w) :
      CoreHistory ok w
  | step {env : Env} {w w' : World} {op : CoreOp} (r : CoreHistory ok w) (hok : ok w op)
      (hf : ∀ i, (env.stale i).follows = true) (h : op.run env w = .ok w') : CoreHistory ok w'

/-- The same, with the operations performed (the last one first). -/
inductive CoreRun (ok : World → CoreOp → Prop) : List CoreOp → World → Prop
  | start {env : Env} {cwd : Path} {args cwdText : Str} {w : World} (h : World.start env cwd args cwdText = .ok w) :
      CoreRun ok [] w
  | step {env : Env} {ops : List CoreOp} {w w' : World} {op : CoreOp} (r : CoreRun ok ops w) (hok : ok w op)
      (hf : ∀ i, (env.stale i).follows = true) (h : op.run env w = .ok w') : CoreRun ok (op :: ops) w'

/-- The clients present after these operations (the last one first), the last that joined first. -/
def presentClients : List CoreOp → List Nat
  | [] => []
  | .join id _ :: ops => id :: (presentClients ops).filter (· ≠ id)
  | .leave id :: ops => (presentClients ops).filter (· ≠ id)
  | _ :: ops => presentClients ops

/-- The name of the buffer an operation may create, if any. -/
def CoreOp.creates : CoreOp → Option Str
  | .edit _ name _ => some name
  | .scratch _ name _ => some name
  | .append name _ _ => some name
  | _ => none

/-- New buffers have no `{` in their name (see C26: identifiers of views are ambiguous otherwise). -/
def CleanName (_ : World) (op : CoreOp) : Prop := ∀ name, op.creates = some name → '{' ∉ name

/-- Views are selected by their identifier, not by the name of a buffer, and a client joins an editor without
clients only if it has a single view. -/
def Ordinary (w : World) (op : CoreOp) : Prop :=
  CleanName w op ∧
  (∀ c id, op = .view c id → w.views.map.has id = true ∨ w.buffers.has id = false) ∧
  (∀ id session, op = .join id session → w.clients.stack = [] → w.views.map.length = 1)

/-- Each client has a live view: it is registered under its identifier, it shows at least one buffer, and all the
buffers it shows exist. -/
def LiveViews (w : World) : Prop :=
  ∀ c ctx, w.clients.map.get c = some ctx →
    w.views.map.get ctx.view.key = some ctx.view ∧ ctx.view.buffers ≠ [] ∧
    ∀ b ∈ ctx.view.buffers, ∃ buf, w.buffers.get b = some buf

/-- Each client has one selection in each buffer of its view. -/
def HasSelections (w : World) : Prop :=
  ∀ c ctx, w.clients.map.get c = some ctx →
    ∃ sels, ctx.selections.get ctx.view.key = some sels ∧ ∀ b ∈ ctx.view.buffers, ∃ s, sels.get b = some [s]

end Ced.Spec

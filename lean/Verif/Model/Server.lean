import Verif.Model.Editor

/-!
# Model of `core/src/server.rs`

One task runs the event loop, another one writes the broadcast messages, and there is one reader per connection.  They
run on one thread and switch only when they wait for a channel, so a step is the whole treatment of one event, or of
one broadcast message; all orders of steps are considered.
-/

namespace Ced

/-- server.rs:13-17, 34-40 `BroadcastMessage::should_notify`. -/
def Broadcast.shouldNotify (b : Broadcast) (client : Nat) : Bool :=
  match b.only with
  | some cs => cs.contains client
  | none => true

/-- server.rs:43 `FIRST_CLIENT_ID`. -/
def FIRST_CLIENT_ID : Nat := 1

/-- server.rs:45-50 `enum Event`; the stream is the client itself. -/
inductive ServerEvent where
  | join (client : Nat)
  | leave (client : Nat)
  | message (client : Nat) (line : Str)
deriving DecidableEq, Repr

/-- What is written on a connection. -/
inductive Wire where
  | response (r : Response)
  | note (n : Note)
deriving DecidableEq, Repr

/-- Why the server can crash. -/
inductive Crash where
  /-- a panic of the editor -/
  | editor (p : Panic)
  /-- a client is not in the index of streams -/
  | missing
  /-- a response cannot be written -/
  | write
deriving DecidableEq, Repr

/-- server.rs:70-73: the variables of the loop; the broadcast messages are `editor.core.out`, of which the first
`delivered` ones have been taken from the channel; everything written so far is in `written`. -/
structure Server (L : Type) where
  editor : Editor L
  index : List Nat
  delivered : Nat
  written : List (Nat × Wire)

namespace Server
variable {L : Type}

/-- A panic of the editor is a crash of the server. -/
def lift {α : Type} : R α → Except Crash α
  | .ok a => .ok a
  | .error p => .error (.editor p)

/-- `HashMap::insert` of a stream. -/
def addIndex (index : List Nat) (c : Nat) : List Nat := if c ∈ index then index else index ++ [c]

/-- `HashMap::remove(..).expect(..)` of a stream. -/
def removeIndex (index : List Nat) (c : Nat) : Except Crash (List Nat) :=
  if c ∈ index then .ok (index.filter (· ≠ c)) else .error .missing

/-- server.rs:97-126: the treatment of an event; `writable` tells whether a response can be written. -/
def react (env : EditorEnv L) (writable : Bool) (s : Server L) : ServerEvent → Except Crash (Server L)
  | .join c => do
    let index := addIndex s.index c
    let e ← lift (s.editor.addClient env c)
    return { s with index := index, editor := e }
  | .leave c => do
    let e ← lift (s.editor.removeClient env c)
    let index ← removeIndex s.index c
    return { s with index := index, editor := e }
  | .message c line => do
    let (e, r) ← lift (s.editor.handle env c line)
    if c ∈ s.index then
      if writable then return { s with editor := e, written := s.written ++ [(c, .response r)] }
      else .error .write
    else .error .missing

/-- server.rs:127-134: the clients that asked to quit leave the index. -/
def purge (s : Server L) : Except Crash (Server L) := do
  let (e, ids) := s.editor.removedClients
  let index ← ids.foldlM removeIndex s.index
  return { s with editor := e, index := index }

/-- `is_leave_event` -/
def isLeave : ServerEvent → Bool
  | .leave _ => true
  | _ => false

/-- server.rs:94-138: one turn of the loop; also whether it is the last one. -/
def turn (env : EditorEnv L) (writable : Bool) (s : Server L) (ev : ServerEvent) : Except Crash (Server L × Bool) := do
  let s ← s.react env writable ev
  let s ← s.purge
  return (s, s.index.isEmpty && isLeave ev)

/-- server.rs:76-91: one turn of the broadcast task; `broken` are the connections that cannot be written to (the error
is only logged). -/
def deliver (broken : List Nat) (s : Server L) : Server L :=
  match s.editor.core.out[s.delivered]? with
  | none => s
  | some b => { s with
      delivered := s.delivered + 1,
      written := s.written ++
        ((s.index.filter fun c => b.shouldNotify c && !broken.contains c).map fun c => (c, .note b.note)) }

/-- A step of the server. -/
inductive Step (L : Type) where
  | event (env : EditorEnv L) (writable : Bool) (ev : ServerEvent)
  | deliver (broken : List Nat)

/-- server.rs:69-139 `handle_events`: the steps, until the loop ends; then what was not treated is returned. -/
def loop : List (Step L) → Server L → Except Crash (Server L × Option (List (Step L)))
  | [], s => .ok (s, none)
  | .deliver broken :: steps, s => loop steps (s.deliver broken)
  | .event env writable ev :: steps, s => do
    let (s, last) ← s.turn env writable ev
    if last then return (s, some steps) else loop steps s

/-- server.rs:70-73: the state before the loop. -/
def start (e : Editor L) : Server L := { editor := e, index := [], delivered := 0, written := [] }

end Server

/-- server.rs:141-193 `serve`, `read_client`: the next identifier and the open connections. -/
structure Network where
  next : Nat
  opened : List Nat

namespace Network

/-- Nothing connected yet. -/
def start : Network := { next := FIRST_CLIENT_ID, opened := [] }

/-- The events put in the channel, in this order: a connection is accepted (the event is sent before its reader
starts), a line is read from an open connection, a connection is closed. -/
inductive Emits : Network → List ServerEvent → Prop
  | done (n : Network) : Emits n []
  | accept {n : Network} {evs : List ServerEvent} (h : Emits { next := n.next + 1, opened := n.next :: n.opened } evs) :
      Emits n (.join n.next :: evs)
  | line {n : Network} {evs : List ServerEvent} {c : Nat} (l : Str) (hc : c ∈ n.opened) (h : Emits n evs) :
      Emits n (.message c l :: evs)
  | close {n : Network} {evs : List ServerEvent} {c : Nat} (hc : c ∈ n.opened)
      (h : Emits { n with opened := n.opened.filter (· ≠ c) } evs) : Emits n (.leave c :: evs)

end Network
end Ced

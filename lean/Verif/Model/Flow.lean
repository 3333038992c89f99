import Verif.Model.Connection

/-!
# The server writes into pipes that have room for so much and no more

`core/src/server.rs` 60-67 (`write_client`), 76-91 and 94-138: the only thread of the server waits for the end of each write
(`future::block_on(stream.write_all(…))`), and meanwhile nothing else happens in it.  `Model/Server` takes a write for done
when it is decided.  Here what is decided is written byte by byte into the connection of the client, as long as there is room,
and the client reads when it likes.

Simplifications: the system takes single bytes (more at once are more steps); all connections have the same room; the
index of streams is changed (server.rs:127-134) before the response is written and not after; a client that hangs up is seen
by the next write at once.
-/

namespace Ced

/-- server.rs:60-67 `write_client`: the bytes of a message, with its newline. -/
def Wire.bytes {T : Type} (o : Ornament T) (x : Wire) : Bytes := Str.encode (frame (x.encode o))

/-- Whether an error in writing it is only logged (server.rs:84-87) or ends the server (server.rs:121-122). -/
def Wire.isNote : Wire → Bool
  | .note _ => true
  | .response _ => false

/-- A write that is not over: to whom, whether an error is only logged, and the bytes left. -/
structure Pending where
  client : Nat
  note : Bool
  left : Bytes
deriving DecidableEq, Repr

/-- The server and its connections: the state of the loop after the step it has begun last; whether the loop has ended; the
writes of that step that are not over; for each client what is on its way, what it has read, and who has hung up. -/
structure Flow (L : Type) where
  server : Server L
  ended : Bool
  todo : List Pending
  way : Nat → Bytes
  got : Nat → Bytes
  closed : List Nat

namespace Flow
variable {L T : Type}

/-- Change the value for one client. -/
def put (f : Nat → Bytes) (c : Nat) (bs : Bytes) : Nat → Bytes := fun d => if d = c then bs else f d

/-- The writes a step of the server has decided: what `s'` has written and `s` has not. -/
def news (o : Ornament T) (s s' : Server L) : List Pending :=
  (s'.written.drop s.written.length).map fun x => ⟨x.1, x.2.isNote, x.2.bytes o⟩

/-- server.rs:82: the streams are visited in the order of a hash map: any order, where each client keeps its own order. -/
def Arranged (todo new : List Pending) : Prop :=
  ∀ c, todo.filter (·.client = c) = new.filter (·.client = c)

/-- What can happen. -/
inductive Act (L : Type) where
  | event (env : EditorEnv L) (ev : ServerEvent)
  | deliver
  | byte
  | done
  | fail
  | read (client : Nat) (n : Nat)
  | hangUp (client : Nat)

/-- One step, where each connection has room for `room` bytes. -/
inductive Step (o : Ornament T) (room : Nat) : Flow L → Act L → Flow L → Prop
  /-- server.rs:94-138: the loop takes the next event, when nothing is being written -/
  | event {f : Flow L} {env : EditorEnv L} {ev : ServerEvent} {s : Server L} {last : Bool} {todo : List Pending} :
      f.ended = false → f.todo = [] → f.server.turn env true ev = .ok (s, last) → Arranged todo (news o f.server s) →
      Step o room f (.event env ev) { f with server := s, ended := last, todo := todo }
  /-- server.rs:78-91: the other task takes the next notification, when nothing is being written -/
  | deliver {f : Flow L} {todo : List Pending} :
      f.ended = false → f.todo = [] → Arranged todo (news o f.server (f.server.deliver [])) →
      Step o room f .deliver { f with server := f.server.deliver [], todo := todo }
  /-- server.rs:66 `write_all`: there is room for the next byte -/
  | byte {f : Flow L} {c : Nat} {note : Bool} {b : UInt8} {bs : Bytes} {rest : List Pending} :
      f.todo = ⟨c, note, b :: bs⟩ :: rest → c ∉ f.closed → (f.way c).length < room →
      Step o room f .byte { f with todo := ⟨c, note, bs⟩ :: rest, way := put f.way c (f.way c ++ [b]) }
  /-- the end of a write -/
  | done {f : Flow L} {c : Nat} {note : Bool} {rest : List Pending} :
      f.todo = ⟨c, note, []⟩ :: rest → Step o room f .done { f with todo := rest }
  /-- server.rs:84-87: the client has hung up, and the error is logged -/
  | fail {f : Flow L} {c : Nat} {b : UInt8} {bs : Bytes} {rest : List Pending} :
      f.todo = ⟨c, true, b :: bs⟩ :: rest → c ∈ f.closed → Step o room f .fail { f with todo := rest }
  /-- a client reads as much as it likes of what there is -/
  | read {f : Flow L} (c n : Nat) :
      Step o room f (.read c n) { f with
        got := put f.got c (f.got c ++ (f.way c).take n), way := put f.way c ((f.way c).drop n) }
  /-- a client closes its connection -/
  | hangUp {f : Flow L} (c : Nat) : Step o room f (.hangUp c) { f with closed := c :: f.closed }

/-- A sequence of steps. -/
inductive Run (o : Ornament T) (room : Nat) : Flow L → List (Act L) → Flow L → Prop
  | nil (f : Flow L) : Run o room f [] f
  | cons {f g h : Flow L} {a : Act L} {as : List (Act L)} : Step o room f a g → Run o room g as h → Run o room f (a :: as) h

/-- server.rs:70-73: before the loop. -/
def start (e : Editor L) : Flow L :=
  { server := Server.start e, ended := false, todo := [], way := fun _ => [], got := fun _ => [], closed := [] }

end Flow
end Ced

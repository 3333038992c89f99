import Verif.Model.Ffi
import Verif.Model.CommandLine

/-!
# Model of `remote-ffi/src/connection.rs`: a C program that watches a session

The reading thread and the program meet at an unbounded channel, so a step is the treatment of one line by the thread, or
one call of the program; all orders are considered.  `ced_connection_next_event` waits up to five seconds: it is the step
at the end of its waiting.  What it prints on the standard output (connection.rs:62-63, 66) is left out.
-/

namespace Ced.Ffi
open CommandLine SessionName
variable {T : Type}

/-- connection.rs:12-14 `struct CedConnection`, with the threads behind it: the connection's state, whether the thread
still reads, the events in the channel, and whether the program still holds the connection. -/
structure Watch (T : Type) where
  conn : Connection T
  reading : Bool
  queue : List (ConnectionEvent T)
  held : Bool

/-- The state after `ced_connection_create` (connection.rs:29-43).  The `Connection` and with it the only sender of
requests is dropped there, so the loop that writes requests (client.rs:30-36) ends: no request is ever sent. -/
def Watch.new : Watch T := { conn := .new, reading := true, queue := [], held := true }

/-- What happens: a line arrives; the server closes the connection, or reading fails (client.rs:37-41: the thread
panics); the program asks for the next event; the program destroys the connection. -/
inductive WatchStep where
  | line (l : Str)
  | ended
  | next
  | destroy
deriving DecidableEq

/-- connection.rs:33-40: the reading thread; an event that nobody can receive any more is printed and dropped. -/
def Watch.read (o : Ornament T) (parse : Str → Option Json) (w : Watch T) (l : Str) : Watch T :=
  if w.reading then
    let (c, ev) := w.conn.receive o parse l
    { w with conn := c, queue := if w.held then w.queue ++ [ev] else w.queue }
  else w

/-- connection.rs:46-68 `ced_connection_next_event`: the first event of the channel, or null.  (On a destroyed connection
the program reads freed memory; C90 is about that.) -/
def Watch.next (frags : T → List Fragment) (w : Watch T) : R (Watch T × Option (Event T)) :=
  if w.held then
    match w.queue with
    | [] => return (w, none)
    | ev :: queue => do
      let e ← Event.ofConnection frags ev
      return ({ w with queue := queue }, some e)
  else .error .explicit

/-- One step, and what the program gets, if it called `ced_connection_next_event`. -/
def Watch.step (o : Ornament T) (parse : Str → Option Json) (frags : T → List Fragment) (w : Watch T) :
    WatchStep → R (Watch T × List (Option (Event T)))
  | .line l => return (w.read o parse l, [])
  | .ended => return ({ w with reading := false }, [])
  | .next => do
    let (w, e) ← w.next frags
    return (w, [e])
  | .destroy => return ({ w with queue := [], held := false }, [])

/-- Steps one after the other, and what the program gets. -/
def Watch.run (o : Ornament T) (parse : Str → Option Json) (frags : T → List Fragment) (w : Watch T) :
    List WatchStep → R (Watch T × List (Option (Event T)))
  | [] => return (w, [])
  | x :: xs => do
    let (w, a) ← w.step o parse frags x
    let (w, b) ← w.run o parse frags xs
    return (w, a ++ b)

/-- What `ced_connection_create` can lead to: a null pointer (and the last error is set), or a connection, for which a
server may have been started. -/
inductive Created (T : Type) where
  | null
  | connected (child : Option Options) (session : Mode) (w : Watch T)

/-- connection.rs:18-21: the session of the argument, or that of the process if it is not UTF-8 (`none`). -/
def sessionAsked (s : Surroundings) : Option Str → R Mode
  | some name => sessionNamed s name
  | none => sessionOfPid s

/-- connection.rs:16-44 `ced_connection_create`.  `name` is the argument, `none` if it is not UTF-8; `spawns` tells
whether a process can be started, `accepts` whether a server accepts the connection (connection.rs:154 of `remote`:
`unwrap`). -/
def create (s : Surroundings) (name : Option Str) (spawns : Bool) (accepts : Mode → Bool) : R (Created T) := do
  let session ← sessionAsked s name
  let child ← ensureSession s session
  if child.isSome && !spawns then return .null
  else if accepts session then return .connected child session .new
  else .error .unwrap

end Ced.Ffi

import Verif.Model.Assoc
import Verif.Model.Str

/-!
# Model of the life of sessions on the file system

`core/src/server.rs` 185-215 (`Server::run`), 165-183 (`serve`), `remote/src/transport/socket.rs` 16-24 (`bind`),
`remote/src/session.rs` 92-105 (`Session::list`), `remote/src/lib.rs` 44-91 (`start_daemon`, `ensure_session`).

Several servers and clients run at the same time on one machine, and each step is one system call of one of them.
Covered: sessions with a plain name (a socket in the directory of sessions, C54); the directory holds nothing else than
sockets; every system call succeeds unless the reason of its failure is in the model.  What the server does between the
moment it is ready and the moment its last client leaves is left out here (C43 says when that is).  A client that connects
after the loop of its server has ended is connected by the system and closed unheard; it is counted as refused.
-/

namespace Ced

/-- Where a server is: it has not looked at the directory yet; the directory was there or has been made; it listens; its
loop has ended; its socket is removed; it has seen that no session is left. -/
inductive ServerPhase where
  | starting
  | ready
  | listening
  | ending
  | unlinked
  | removing
deriving DecidableEq, Repr

/-- A running server: its session, and whether it has told that it is ready (server.rs:169-170, the empty line). -/
structure ServerProc where
  name : Str
  phase : ServerPhase
  told : Bool
deriving DecidableEq, Repr

/-- Where a client is: about to look for the socket; waiting for the server it has started; about to connect; connected
to a server; told that nobody listens. -/
inductive ClientPhase where
  | checking
  | waiting (server : Nat)
  | connecting
  | connected (server : Nat)
  | refused
deriving DecidableEq, Repr

/-- A running client and the session it wants. -/
structure ClientProc where
  name : Str
  phase : ClientPhase
deriving DecidableEq, Repr

/-- The machine: whether the directory of sessions exists, the sockets in it with the server each one leads to, the
servers and the clients that run, and the number of the next process. -/
structure Machine where
  dir : Bool
  files : Assoc Str Nat
  servers : Assoc Nat ServerProc
  clients : Assoc Nat ClientProc
  next : Nat
deriving DecidableEq, Repr

namespace Machine

/-- A machine on which ced has not run. -/
def fresh : Machine := { dir := false, files := [], servers := [], clients := [], next := 1 }

/-- session.rs:92-105 `Session::list`; nothing when the directory is missing. -/
def list (m : Machine) : List Str := if m.dir then m.files.keys else []

/-- What may happen: a server is started (`ced --mode=server`), a client is started (`ced --mode=term` or `json`), a
process does its next system call, the last client of a server leaves, a server is killed or crashes. -/
inductive Step where
  | server (name : Str)
  | client (name : Str)
  | go (pid : Nat)
  | lastLeave (pid : Nat)
  | crash (pid : Nat)
deriving DecidableEq, Repr

/-- A new server. -/
def spawn (m : Machine) (name : Str) : Machine :=
  { m with servers := m.servers.set m.next { name := name, phase := .starting, told := false }, next := m.next + 1 }

/-- The next system call of a server. -/
def goServer (m : Machine) (pid : Nat) (p : ServerProc) : Machine :=
  match p.phase with
  | .starting =>
    -- socket.rs:18-21 `if !root_dir.exists() { create_dir_all }`
    { m with dir := true, servers := m.servers.set pid { p with phase := .ready } }
  | .ready =>
    -- socket.rs:22 `UnixListener::bind`; server.rs:167 on an error `serve` ends, which closes the channel of events, so
    -- `handle_events` ends too (server.rs:88, 193)
    if m.dir = false ∨ m.files.has p.name = true then
      { m with servers := m.servers.set pid { p with phase := .ending } }
    else
      { m with files := m.files.set p.name pid, servers := m.servers.set pid { p with phase := .listening, told := true } }
  | .listening => m
  | .ending =>
    -- server.rs:199 `fs::remove_file(path).expect(…)`
    if m.files.has p.name then
      { m with files := m.files.del p.name, servers := m.servers.set pid { p with phase := .unlinked } }
    else { m with servers := m.servers.del pid }
  | .unlinked =>
    -- server.rs:200 `Session::list().is_empty()`
    if m.list = [] then { m with servers := m.servers.set pid { p with phase := .removing } }
    else { m with servers := m.servers.del pid }
  | .removing =>
    -- server.rs:201-202 `fs::remove_dir`, which fails when the directory is not empty; the process ends
    { m with dir := m.dir && !m.files.isEmpty, servers := m.servers.del pid }

/-- A server answers on this socket. -/
def listener (m : Machine) (name : Str) : Option Nat :=
  match m.files.get name with
  | none => none
  | some pid =>
    match m.servers.get pid with
    | none => none
    | some p => if p.phase = .listening then some pid else none

/-- The next system call of a client. -/
def goClient (m : Machine) (pid : Nat) (c : ClientProc) : Machine :=
  match c.phase with
  | .checking =>
    -- lib.rs:84-90 `ensure_session`
    if m.dir && m.files.has c.name then { m with clients := m.clients.set pid { c with phase := .connecting } }
    else
      let m' := m.spawn c.name
      { m' with clients := m'.clients.set pid { c with phase := .waiting m.next } }
  | .waiting server =>
    -- lib.rs:62-77: until the empty line, or the end of the server
    match m.servers.get server with
    | some p => if p.told then { m with clients := m.clients.set pid { c with phase := .connecting } } else m
    | none => { m with clients := m.clients.set pid { c with phase := .connecting } }
  | .connecting =>
    -- server_stream.rs:19-30 `ServerStream::new`
    match m.listener c.name with
    | some server => { m with clients := m.clients.set pid { c with phase := .connected server } }
    | none => { m with clients := m.clients.set pid { c with phase := .refused } }
  | .connected _ => m
  | .refused => m

/-- One step; a step of a process that does not run does nothing. -/
def step (m : Machine) : Step → Machine
  | .server name => m.spawn name
  | .client name =>
    { m with clients := m.clients.set m.next { name := name, phase := .checking }, next := m.next + 1 }
  | .go pid =>
    match m.servers.get pid with
    | some p => m.goServer pid p
    | none =>
      match m.clients.get pid with
      | some c => m.goClient pid c
      | none => m
  | .lastLeave pid =>
    match m.servers.get pid with
    | some p => if p.phase = .listening then { m with servers := m.servers.set pid { p with phase := .ending } } else m
    | none => m
  | .crash pid => { m with servers := m.servers.del pid }

/-- A schedule. -/
def run (m : Machine) (steps : List Step) : Machine := steps.foldl step m

end Machine
end Ced

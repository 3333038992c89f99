import Verif.Model.Assoc
import Verif.Model.SessionName

/-!
# Sessions at any place: addresses, nested and absolute paths, foreign files

`core/src/server.rs` 165-215 (`serve`, `Server::run`), `remote/src/transport/socket.rs` 16-24 (`bind`),
`remote/src/transport/server_listener.rs` 19-28, `remote/src/transport/server_stream.rs` 18-27,
`remote/src/session.rs` 75-106, `remote/src/lib.rs` 44-91.

`Model/Lifecycle` is about sessions with a plain name.  Here a session is at any address or any path, and the file system
also holds files and directories that are not ced's.  Several servers and clients run at the same time, and each step is
one system call of one of them, except that the directories made by `create_dir_all` are made in one step.

Not covered: symbolic links and `..` in paths, permissions and other failures that depend on the system, an address that
includes others (`0.0.0.0`), and what happens between the moment a server is ready and the moment its last client leaves
(C43).  A client that connects after the loop of its server has ended is connected by the system and closed unheard; it is
counted as refused.
-/

namespace Ced

open SessionName

/-- A path as the names from the root of the file system on. -/
abbrev FsPath := List Str

/-- Where a session is: the socket `name` in the directory `dir`, or an address (session.rs:20-24 `ConnectionMode`; the
path has a last name, else the server panics when it prints it, C89). -/
inductive Place where
  | socket (dir : FsPath) (name : Str)
  | tcp (addr : Addr)
deriving DecidableEq, Repr

/-- The names of a Unix path (`Path::components`), without `.`. -/
def namesOf (path : Str) : FsPath := (pieces '/' path).filter fun p => p ≠ [] && p ≠ ['.']

/-- The place of a session that was parsed from its name; none when the path has no last name. -/
def placeOf : Mode → Option Place
  | .tcp a => some (.tcp a)
  | .socket path =>
    match (namesOf path).getLast? with
    | some n => some (.socket (namesOf path).dropLast n)
    | none => none

/-- What is at a path: a directory, the socket on which the server with this number listens, another file. -/
inductive Node where
  | dir
  | socket (server : Nat)
  | file
deriving DecidableEq, Repr

/-- Where a server is: it has not looked at the directory yet; the directory was there or has been made; it listens; its
loop has ended; its socket is removed; it has seen that no session is left. -/
inductive HostPhase where
  | starting
  | ready
  | listening
  | ending
  | unlinked
  | removing
deriving DecidableEq, Repr

/-- A running server: its session, and whether it has told that it is ready (server.rs:169-170). -/
structure HostServer where
  place : Place
  phase : HostPhase
  told : Bool
deriving DecidableEq, Repr

/-- Where a client is: about to look for the socket; waiting for the server it has started; about to connect; connected
to a server; told that nobody listens. -/
inductive GuestPhase where
  | checking
  | waiting (server : Nat)
  | connecting
  | connected (server : Nat)
  | refused
deriving DecidableEq, Repr

/-- A running client and the session it wants. -/
structure Guest where
  place : Place
  phase : GuestPhase
deriving DecidableEq, Repr

/-- The machine: its file system (the root is not listed), the addresses on which a server listens, the servers and the
clients that run, and the number of the next process. -/
structure Host where
  fs : Assoc FsPath Node
  ports : Assoc Addr Nat
  servers : Assoc Nat HostServer
  clients : Assoc Nat Guest
  next : Nat
deriving DecidableEq, Repr

namespace Host

/-- `Path::is_dir`. -/
def isDir (h : Host) (p : FsPath) : Bool := p = [] || h.fs.get p = some .dir

/-- `Path::exists`. -/
def pathExists (h : Host) (p : FsPath) : Bool := p = [] || h.fs.has p

/-- The names in a directory (`fs::read_dir`). -/
def entries (fs : Assoc FsPath Node) (p : FsPath) : List Str :=
  fs.keys.filterMap fun q => if q ≠ [] ∧ q.dropLast = p then q.getLast? else none

/-- session.rs:92-105 `Session::list`, where `root` is the directory of session.rs:69-73 `build_root`. -/
def list (root : FsPath) (h : Host) : List Str := if h.isDir root then entries h.fs root else []

/-- The path and all the directories on the way to it (but the root). -/
def prefixes (p : FsPath) : List FsPath := (List.range p.length).map fun i => p.take (i + 1)

/-- The directories that are missing are made. -/
def makeDirs (fs : Assoc FsPath Node) (p : FsPath) : Assoc FsPath Node :=
  (prefixes p).foldl (fun fs q => if fs.has q then fs else fs.set q .dir) fs

/-- What may happen: a server is started (`ced --mode=server`), a client is started (`ced --mode=term` or `json`), a
process does its next system call, the last client of a server leaves, a server is killed or crashes, somebody makes a
directory or a file of his own, somebody removes a file, a socket or an empty directory. -/
inductive Step where
  | server (place : Place)
  | client (place : Place)
  | go (pid : Nat)
  | lastLeave (pid : Nat)
  | crash (pid : Nat)
  | make (dir : FsPath) (name : Str) (node : Node)
  | remove (path : FsPath)
deriving DecidableEq, Repr

/-- A new server. -/
def spawn (h : Host) (place : Place) : Host :=
  { h with servers := h.servers.set h.next { place := place, phase := .starting, told := false }, next := h.next + 1 }

/-- The process ends; the system closes what it listens on (a socket stays in its directory). -/
def gone (h : Host) (pid : Nat) : Host :=
  match h.servers.get pid with
  | none => h
  | some p =>
    { h with
      servers := h.servers.del pid
      ports := match p.place with
        | .tcp a => if h.ports.get a = some pid then h.ports.del a else h.ports
        | .socket _ _ => h.ports }

/-- The next system call of a server. -/
def goServer (root : FsPath) (h : Host) (pid : Nat) (p : HostServer) : Host :=
  match p.place with
  | .tcp a =>
    match p.phase with
    | .starting =>
      -- server_listener.rs:25 `TcpListener::bind`; on an error `serve` ends (server.rs:167), which closes the channel of
      -- events, so `handle_events` ends too (server.rs:88, 193) and the process ends: nothing is cleaned (server.rs:197).
      -- For the port 0 the system chooses a port, which no session name says.
      if a.port = 0 then { h with servers := h.servers.set pid { p with phase := .listening, told := true } }
      else if h.ports.has a then h.gone pid
      else { h with ports := h.ports.set a pid, servers := h.servers.set pid { p with phase := .listening, told := true } }
    | .listening => h
    | _ => h.gone pid
  | .socket dir name =>
    match p.phase with
    | .starting =>
      -- socket.rs:18-21 `if !root_dir.exists() { create_dir_all(root_dir)? }`
      if h.pathExists dir then { h with servers := h.servers.set pid { p with phase := .ready } }
      else if (prefixes dir).all (fun q => !h.fs.has q || h.isDir q) then
        { h with fs := makeDirs h.fs dir, servers := h.servers.set pid { p with phase := .ready } }
      else { h with servers := h.servers.set pid { p with phase := .ending } }
    | .ready =>
      -- socket.rs:22 `UnixListener::bind`
      if h.isDir dir && !h.fs.has (dir ++ [name]) then
        { h with fs := h.fs.set (dir ++ [name]) (.socket pid)
                 servers := h.servers.set pid { p with phase := .listening, told := true } }
      else { h with servers := h.servers.set pid { p with phase := .ending } }
    | .listening => h
    | .ending =>
      -- server.rs:199 `fs::remove_file(path).expect(…)`
      match h.fs.get (dir ++ [name]) with
      | none => h.gone pid
      | some .dir => h.gone pid
      | some _ => { h with fs := h.fs.del (dir ++ [name]), servers := h.servers.set pid { p with phase := .unlinked } }
    | .unlinked =>
      -- server.rs:200 `Session::list().is_empty()`
      if h.list root = [] then { h with servers := h.servers.set pid { p with phase := .removing } }
      else h.gone pid
    | .removing =>
      -- server.rs:201-202 `fs::remove_dir(path.parent())`, which fails when it is not empty; the process ends
      if h.fs.get dir = some .dir && (entries h.fs dir).isEmpty then { h.gone pid with fs := h.fs.del dir }
      else h.gone pid

/-- The server that a new connection reaches: it listens at the place. -/
def reaches (h : Host) (place : Place) : Option Nat :=
  let found := match place with
    | .tcp a => h.ports.get a
    | .socket dir name =>
      match h.fs.get (dir ++ [name]) with
      | some (.socket pid) => some pid
      | _ => none
  match found with
  | none => none
  | some pid =>
    match h.servers.get pid with
    | some p => if p.phase = .listening then some pid else none
    | none => none

/-- The next system call of a client. -/
def goClient (root : FsPath) (h : Host) (pid : Nat) (c : Guest) : Host :=
  match c.phase with
  | .checking =>
    -- lib.rs:84-90 `ensure_session`; lib.rs:44-60 the server is given the last name of the path
    match c.place with
    | .tcp _ => { h with clients := h.clients.set pid { c with phase := .connecting } }
    | .socket dir name =>
      if h.pathExists (dir ++ [name]) then { h with clients := h.clients.set pid { c with phase := .connecting } }
      else
        let h' := h.spawn (.socket root name)
        { h' with clients := h'.clients.set pid { c with phase := .waiting h.next } }
  | .waiting server =>
    -- lib.rs:62-77: until the empty line, or the end of the server
    match h.servers.get server with
    | some p => if p.told then { h with clients := h.clients.set pid { c with phase := .connecting } } else h
    | none => { h with clients := h.clients.set pid { c with phase := .connecting } }
  | .connecting =>
    -- server_stream.rs:19-27 `ServerStream::new`
    match h.reaches c.place with
    | some server => { h with clients := h.clients.set pid { c with phase := .connected server } }
    | none => { h with clients := h.clients.set pid { c with phase := .refused } }
  | .connected _ => h
  | .refused => h

/-- One step; a step of a process that does not run does nothing.  What somebody makes is new and in a directory, and
nobody else makes sockets. -/
def step (root : FsPath) (h : Host) : Step → Host
  | .server place => h.spawn place
  | .client place =>
    { h with clients := h.clients.set h.next { place := place, phase := .checking }, next := h.next + 1 }
  | .go pid =>
    match h.servers.get pid with
    | some p => goServer root h pid p
    | none =>
      match h.clients.get pid with
      | some c => goClient root h pid c
      | none => h
  | .lastLeave pid =>
    match h.servers.get pid with
    | some p => if p.phase = .listening then { h with servers := h.servers.set pid { p with phase := .ending } } else h
    | none => h
  | .crash pid => h.gone pid
  | .make dir name node =>
    match node with
    | .socket _ => h
    | _ => if h.isDir dir && !h.fs.has (dir ++ [name]) then { h with fs := h.fs.set (dir ++ [name]) node } else h
  | .remove path =>
    if h.fs.get path = some .dir && !(entries h.fs path).isEmpty then h else { h with fs := h.fs.del path }

/-- A schedule. -/
def run (root : FsPath) (h : Host) (steps : List Step) : Host := steps.foldl (step root) h

/-- A machine without processes, with these files (each in a directory). -/
def booted (fs : Assoc FsPath Node) : Host := { fs := fs, ports := [], servers := [], clients := [], next := 1 }

end Host
end Ced

import Verif.Model.SessionName

/-!
# What a command line of `ced` does (core/src/bin/ced.rs, remote/src/lib.rs, remote/src/session.rs)

The arguments are taken as `clap` (an external crate) has read them; a process that is started is given by the
arguments it gets.  What the chosen mode does afterwards is in the other models.
-/

namespace Ced
namespace CommandLine

open SessionName

/-- ced.rs:9-21 `enum Mode` (with the feature `term`). -/
inductive RunMode where
  | daemon | json | script | server | standalone | term
deriving DecidableEq, Repr

/-- ced.rs:37-41 `Mode::default_value`. -/
def RunMode.default : RunMode := .term

/-- ced.rs:48-78: the arguments. -/
structure Options where
  list : Bool
  session : Option Str
  mode : RunMode
  files : List Str
deriving DecidableEq, Repr

/-- What the program sees of the machine: the classes of the regular expressions, the temporary directory, the variable
`USER`, its process number, the names in a directory (none when it cannot be read), and whether a path exists. -/
structure Surroundings where
  cls : Classes
  tmp : Str
  user : Option Str
  pid : Nat
  entries : Str → List Str
  pathExists : Str → Bool

/-- What the program goes on with. -/
inductive Launch where
  /-- the names are printed, and that is all -/
  | list (names : List Str)
  /-- a process is started with these arguments, and that is all -/
  | daemon (child : Options)
  /-- relay between the standard streams and a session, after starting a process -/
  | json (child : Option Options) (session : Mode)
  /-- run scripts -/
  | script (files : List Str)
  /-- be the server of a session -/
  | server (session : Mode)
  /-- edit without a session -/
  | standalone (files : List Str)
  /-- the terminal client of a session, after starting a process -/
  | term (child : Option Options) (session : Mode) (files : List Str)
deriving DecidableEq, Repr

/-- session.rs:69-73 `build_root`; without the variable it is an `unwrap` panic. -/
def buildRoot (s : Surroundings) : R Str := do
  let user ← unwrapR s.user
  return push s.tmp (str!"ced-" ++ user)

/-- session.rs:75-86 `from_name`: the root is only looked for when the name is not an address. -/
def sessionNamed (s : Surroundings) (name : Str) : R Mode :=
  if isTcp s.cls name then parse s.cls name
  else do
    let root ← buildRoot s
    parse s.cls (push root name)

/-- session.rs:88-90 `from_pid`. -/
def sessionOfPid (s : Surroundings) : R Mode := sessionNamed s (natStr s.pid)

/-- lib.rs:44-60 `start_daemon`: the arguments of the process it starts (`--mode=server`, `--session=…`). -/
def startDaemon (m : Mode) : R Options := do
  let name ← m.display
  return { list := false, session := some name, mode := .server, files := [] }

/-- lib.rs:84-91 `ensure_session`: the process that is started, if any. -/
def ensureSession (s : Surroundings) (m : Mode) : R (Option Options) :=
  match m with
  | .socket path =>
    if s.pathExists path then return none
    else do
      let child ← startDaemon m
      return some child
  | .tcp _ => return none

/-- ced.rs:86-89: the session. -/
def sessionFor (s : Surroundings) (o : Options) : R Mode :=
  match o.session with
  | some name => sessionNamed s name
  | none => sessionOfPid s

/-- ced.rs:45-121 `main`: the session is made before the mode is looked at; in the mode `server` it is printed
(ced.rs:105). -/
def main (s : Surroundings) (o : Options) : R Launch :=
  if o.list then do
    let root ← buildRoot s
    return .list (s.entries root)
  else do
    let session ← sessionFor s o
    match o.mode with
    | .daemon => do
      let child ← startDaemon session
      return .daemon child
    | .json => do
      let child ← ensureSession s session
      return .json child session
    | .script => return .script o.files
    | .server => do
      let _ ← session.display
      return .server session
    | .standalone => return .standalone o.files
    | .term => do
      let child ← ensureSession s session
      return .term child session o.files

/-- What the lookup of the program of a server sees: the variable `CED_BIN`, the path of the running program (none when it is
not known), and whether a path exists. -/
structure Here where
  bin : Option Str
  exe : Option Str
  pathExists : Str → Bool

/-- `PathBuf::pop` (Unix) on an absolute path without `//`, `/./` or a slash at its end, which is what `current_exe` gives: the
last component is cut off; the root stays. -/
def pop (path : Str) : Str :=
  match (path.reverse.dropWhile (· ≠ '/')).drop 1 with
  | [] => ['/']
  | r => r.reverse

/-- lib.rs:24-42 `find_bin` (not on Windows): the program that a server is started from (lib.rs:45). -/
def findBin (h : Here) : Str :=
  match h.bin with
  | some bin => bin
  | none =>
    match h.exe with
    | some exe =>
      let beside := push (pop exe) (str!"ced")
      if h.pathExists beside then beside else str!"ced"
    | none => str!"ced"

end CommandLine
end Ced

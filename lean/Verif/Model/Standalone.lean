import Verif.Model.Editor

/-!
# Model of `core/src/clients.rs:13-46` and of `core/src/script.rs`: the editor without a server

In standalone mode the editor's notifications go through a channel for 100 messages; the thread that prints them is
started only after the files of the command line are open, so until then sending blocks for ever when the channel is
full.
-/

namespace Ced.Standalone
variable {L : Type}

/-- clients.rs:11 `CLIENT_ID` -/
def client : Nat := 1

/-- clients.rs:14 `bounded(100)` -/
def capacity : Nat := 100

/-- How starting ends: it waits for ever, or the editor is ready. -/
inductive Started (L : Type) where
  | blocked
  | ready (e : Editor L)

/-- Whether all notifications so far fit in the channel, nobody reading it. -/
def fits (e : Editor L) : Bool := e.core.out.length ≤ capacity

/-- clients.rs:18-26: the files of the command line are opened, one after the other. (A command that would have filled
the channel and then panicked is a panic here, but blocks before that in the program.) -/
def openFiles (env : EditorEnv L) (e : Editor L) : List Str → R (Started L)
  | [] => .ok (.ready e)
  | f :: fs => do
    let (e, _) ← e.commandEdit env client (f, false)
    if fits e then openFiles env e fs else return .blocked

/-- clients.rs:13-26 `start_standalone`, until the printing thread is started. -/
def start (env : EditorEnv L) (lua : L) (prelude : Script L) (cwd : Path) (args cwdText : Str) (files : List Str) :
    R (Started L) := do
  let e ← Editor.new env lua prelude [] cwd args cwdText
  let e ← e.addClient env client
  if fits e then openFiles env e files else return .blocked

/-- clients.rs:35-44: the lines of the standard input are handled, one after the other; the responses printed. -/
def lines (env : EditorEnv L) (e : Editor L) : List Str → R (Editor L × List Response)
  | [] => .ok (e, [])
  | l :: ls => do
    let (e, r) ← e.handle env client l
    let (e, rs) ← lines env e ls
    return (e, r :: rs)

/-- clients.rs:34-46: until the end of the input. -/
def session (env : EditorEnv L) (e : Editor L) (input : List Str) : R (Editor L × List Response) := do
  let (e, rs) ← lines env e input
  let e ← e.removeClient env client
  return (e, rs)

/-- How a run of scripts ends: properly; at a file that could not be read; at a script that failed, of which the name and the
message are written on the standard error (script.rs:29-30). -/
inductive Ended where
  | fine
  | unreadable (file : Str)
  | failed (file message : Str)
deriving DecidableEq

/-- script.rs:18-25: the source of a script, and what is left of the standard input: `-` is the standard input, read to its end.
(`none`: it cannot be read, or is no text.  A terminal, which may give more after its end, is left out.) -/
def readSource (disk : Str → Option Str) (stdin : Option Str) (name : Str) : Option Str × Option Str :=
  if name = str!"-" then (stdin, some []) else (disk name, stdin)

/-- script.rs:17-33 `exec_scripts`: the files are read and run one after the other, until one fails; each comes with the content
that the files have at its turn. -/
def scripts (env : EditorEnv L) (stdin : Option Str) (e : Editor L) : List (Str × (Str → Option Str)) → R (Editor L × Ended)
  | [] => .ok (e, .fine)
  | (name, disk) :: rest =>
    match readSource disk stdin name with
    | (none, _) => .ok (e, .unreadable name)
    | (some source, stdin) => do
      let (e, err) ← e.execLua env name client (env.lua.exec client source)
      match err with
      | some message => return (e, .failed name message)
      | none => scripts env stdin e rest

/-- script.rs:11-37 `exec_scripts`. -/
def execScripts (env : EditorEnv L) (lua : L) (prelude : Script L) (cwd : Path) (args cwdText : Str) (stdin : Option Str)
    (files : List (Str × (Str → Option Str))) : R (Editor L × Ended) := do
  let e ← Editor.new env lua prelude [] cwd args cwdText
  let e ← e.addClient env client
  let (e, ended) ← scripts env stdin e files
  if ended = .fine then return (← e.removeClient env client, .fine) else return (e, ended)

/-- script.rs:54-70 `exec_script_oneshot` (used by the project's own tests): one file, of which the name `-` says nothing. -/
def oneshot (env : EditorEnv L) (lua : L) (prelude : Script L) (cwd : Path) (args cwdText : Str) (disk : Str → Option Str)
    (file : Str) : R (Editor L × Ended) := do
  let e ← Editor.new env lua prelude [] cwd args cwdText
  let e ← e.addClient env client
  match disk file with
  | none => return (e, .unreadable file)
  | some source =>
    let (e, err) ← e.execLua env file client (env.lua.exec client source)
    match err with
    | some message => return (e, .failed file message)
    | none => return (← e.removeClient env client, .fine)

end Ced.Standalone

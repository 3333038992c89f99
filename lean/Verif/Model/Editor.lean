import Verif.Model.Menu
import Verif.Model.Requests

/-!
# Model of `core/src/editor/mod.rs`: the requests of the clients

The scripting engine is a parameter (`Lua`): running a script gives a new engine state, a new editor state and possibly
an error message, or panics.  The text of serde's error messages is a parameter too.
-/

namespace Ced

/-- What a script does (`rlua`): the engine state, the editor state, and the message of the error it ends with. -/
abbrev Script (L : Type) := L → World → R (L × World × Option Str)

/-- The entry points of the scripts (core/scripts/editor.lua, keys.lua) called by mod.rs, the global `env` being set. -/
structure Lua (L : Type) where
  addClient : Nat → Script L
  removeClient : Nat → Script L
  key : Nat → KeyEvent → Script L
  exec : Nat → Str → Script L

/-- What the editor depends on besides its state. -/
structure EditorEnv (L : Type) where
  core : Env
  lua : Lua L
  /-- the regular expressions of the menus -/
  compile : Compile
  /-- the files below a directory, relative to it (`ignore::Walk`) -/
  files : Path → List Str
  /-- JSON text to values -/
  parse : Str → Option Json
  /-- the message of serde for a line that is no request, resp. for ill-typed parameters -/
  lineError : Str → Str
  paramsError : Request → Str

/-- mod.rs:92-98 `struct Editor`. -/
structure Editor (L : Type) where
  session : Str
  menus : Assoc Str MenuState
  stopped : List Nat
  core : World
  lua : L

namespace Editor
variable {L : Type}

/-- mod.rs:154-182 `exec_lua`: an error is logged and told to the client. -/
def execLua (env : EditorEnv L) (e : Editor L) (source : Str) (client : Nat) (script : Script L) :
    R (Editor L × Option Str) := do
  let (l, w, err) ← script e.lua e.core
  let e := { e with lua := l, core := w }
  match err with
  | none => return (e, none)
  | some message =>
    let w ← e.core.debug env.core (str!"client " ++ natStr client ++ str!": exec error: " ++ source ++
      str!"\n<<<<<<<\n" ++ message ++ str!"\n>>>>>>>")
    let w ← w.error env.core (some client) str!"exec" message
    return ({ e with core := w }, some message)

/-- mod.rs:184-195 `add_client`. -/
def addClient (env : EditorEnv L) (e : Editor L) (id : Nat) : R (Editor L) := do
  let w ← e.core.addClient env.core id e.session
  let (e, _) ← { e with core := w }.execLua env str!"add_client" id (env.lua.addClient id)
  return e

/-- mod.rs:197-202 `remove_client`. -/
def removeClient (env : EditorEnv L) (e : Editor L) (id : Nat) : R (Editor L) := do
  let w ← e.core.removeClient env.core id
  let (e, _) ← { e with core := w }.execLua env str!"remove_client" id (env.lua.removeClient id)
  return e

/-- mod.rs:204-208 `removed_clients`. -/
def removedClients (e : Editor L) : Editor L × List Nat := ({ e with stopped := [] }, e.stopped)

/-- The answer of a command: an error, or nothing. -/
abbrev Answer := Option RpcError

/-- `map_err(|e| Error::invalid_request(&e.to_string()))` -/
def ofCoreError : Option CoreError → Answer
  | none => none
  | some err => some (.invalidRequest err.display)

/-- mod.rs:242-249 `command_edit`. -/
def commandEdit (env : EditorEnv L) (e : Editor L) (client : Nat) (p : Str × Bool) : R (Editor L × Answer) := do
  let w ← e.core.edit env.core client p.1 p.2
  return ({ e with core := w }, none)

/-- mod.rs:251-258 `command_quit`. -/
def commandQuit (env : EditorEnv L) (e : Editor L) (client : Nat) : R (Editor L × Answer) := do
  let w ← e.core.removeClient env.core client
  return ({ e with core := w, stopped := if client ∈ e.stopped then e.stopped else e.stopped ++ [client] }, none)

/-- mod.rs:260-268 `command_view`. -/
def commandView (env : EditorEnv L) (e : Editor L) (client : Nat) (p : Str) : R (Editor L × Answer) := do
  let (w, err) ← e.core.view env.core client p
  return ({ e with core := w }, ofCoreError err)

/-- mod.rs:270-276 `command_view_delete`. -/
def commandViewDelete (env : EditorEnv L) (e : Editor L) (client : Nat) : R (Editor L × Answer) := do
  let w ← e.core.deleteCurrentView env.core client
  return ({ e with core := w }, none)

/-- mod.rs:278-286 `command_view_add`. -/
def commandViewAdd (env : EditorEnv L) (e : Editor L) (client : Nat) (p : Str) : R (Editor L × Answer) := do
  let (w, err) ← e.core.addToCurrentView env.core client p
  return ({ e with core := w }, ofCoreError err)

/-- mod.rs:288-296 `command_view_remove`. -/
def commandViewRemove (env : EditorEnv L) (e : Editor L) (client : Nat) (p : Str) : R (Editor L × Answer) := do
  let (w, err) ← e.core.removeFromCurrentView env.core client p
  return ({ e with core := w }, ofCoreError err)

/-- mod.rs:31-36, 309-314: what the menus are filled from. -/
def info (env : EditorEnv L) (e : Editor L) : EditorInfo :=
  { session := e.session, files := env.files e.core.cwd, buffers := e.core.buffers.keys, views := e.core.views.map.keys }

/-- mod.rs:318-322 and command.rs:25-29: send a menu to a client. -/
def sendMenu (env : EditorEnv L) (e : Editor L) (client : Nat) (command search : Str) : R (Editor L) := do
  let menu ← e.menus.at! command
  let note ← menu.toNotificationParams env.compile search
  return { e with core := e.core.notify client note }

/-- mod.rs:298-324 `command_menu`. -/
def commandMenu (env : EditorEnv L) (e : Editor L) (client : Nat) (p : Str × Str) : R (Editor L × Answer) :=
  match e.menus.get p.1 with
  | none => .ok (e, some (.invalidParams (str!"unknown command: " ++ p.1)))
  | some menu => do
    let e := if p.2 = [] then { e with menus := e.menus.set p.1 (menu.populate (e.info env)) } else e
    let e ← e.sendMenu env client p.1 p.2
    return (e, none)

/-- command.rs:12-31 `submenu_action`. -/
def submenuAction (env : EditorEnv L) (e : Editor L) (client : Nat) (key : Str) : R (Editor L × Answer) := do
  let menu ← unwrapR (e.menus.get key)
  let e := { e with menus := e.menus.set key (menu.populate (e.info env)) }
  let e ← e.sendMenu env client key []
  return (e, none)

/-- mod.rs:369-376 `command_exec`. -/
def commandExec (env : EditorEnv L) (e : Editor L) (client : Nat) (source : Str) : R (Editor L × Answer) := do
  let (e, err) ← e.execLua env str!"exec" client (env.lua.exec client source)
  return (e, err.map fun m => { code := 1, message := str!"exec error", data := some (.str m) })

/-- command.rs:33-225: the actions of the entries. -/
def runAction (env : EditorEnv L) (e : Editor L) (client : Nat) (key : Str) : MenuAction → R (Editor L × Answer)
  | .submenu => e.submenuAction env client key
  | .quit => e.commandQuit env client
  | .viewDelete => e.commandViewDelete env client
  | .edit => e.commandEdit env client (key, false)
  | .scratch => e.commandEdit env client (key, true)
  | .view => e.commandView env client key
  | .viewAdd => e.commandViewAdd env client key
  | .viewRemove => e.commandViewRemove env client key
  | .exec => e.commandExec env client key

/-- mod.rs:331-338: the entry chosen; a prompt accepts every choice. -/
def chosen (menu : MenuState) (choice : Str) : Option MenuEntry :=
  match menu.get choice with
  | some entry => some entry
  | none => if menu.isPrompt then menu.get [] else none

/-- mod.rs:326-346 `command_menu_select`. -/
def commandMenuSelect (env : EditorEnv L) (e : Editor L) (client : Nat) (p : Str × Str) : R (Editor L × Answer) :=
  match e.menus.get p.1 with
  | none => .ok (e, some (.invalidParams (str!"unknown command: " ++ p.1)))
  | some menu =>
    match chosen menu p.2 with
    | none => .ok (e, some (.invalidParams (str!"unknown choice: " ++ p.2)))
    | some entry => e.runAction env client p.2 entry.action

/-- mod.rs:348-367 `command_keys`: stops at the first key whose handler fails. -/
def commandKeys (env : EditorEnv L) (e : Editor L) (client : Nat) : List KeyEvent → R (Editor L × Answer)
  | [] => .ok (e, none)
  | k :: ks => do
    let (e, err) ← e.execLua env str!"keys" client (env.lua.key client k)
    match err with
    | none => e.commandKeys env client ks
    | some m => do
      let w ← e.core.error env.core (some client) str!"key handler" m
      return ({ e with core := w }, some (.internalError m))

/-- jsonrpc.rs:350-362 `response!`: read the parameters and run the command. -/
def withParams {α : Type} (env : EditorEnv L) (e : Editor L) (r : Request) (dec : Json → Option α)
    (call : Editor L → α → R (Editor L × Answer)) : R (Editor L × Answer) :=
  match Params.get dec r with
  | .ok (some p) => call e p
  | .ok none => .ok (e, some (.invalidRequest str!"missing field: params"))
  | .error () => .ok (e, some (.invalidParams (env.paramsError r)))

/-- mod.rs:219-231: the command of a request; `none` for an unknown method. -/
def dispatch (env : EditorEnv L) (e : Editor L) (client : Nat) (r : Request) : Option (R (Editor L × Answer)) :=
  if r.method = str!"edit" then some (e.withParams env r Params.edit fun e p => e.commandEdit env client p)
  else if r.method = str!"quit" then some (e.commandQuit env client)
  else if r.method = str!"view" then some (e.withParams env r Params.string fun e p => e.commandView env client p)
  else if r.method = str!"view-delete" then some (e.commandViewDelete env client)
  else if r.method = str!"view-add" then some (e.withParams env r Params.string fun e p => e.commandViewAdd env client p)
  else if r.method = str!"view-remove" then
    some (e.withParams env r Params.string fun e p => e.commandViewRemove env client p)
  else if r.method = str!"menu" then some (e.withParams env r Params.menu fun e p => e.commandMenu env client p)
  else if r.method = str!"menu-select" then
    some (e.withParams env r Params.menuSelect fun e p => e.commandMenuSelect env client p)
  else if r.method = str!"keys" then some (e.withParams env r Params.keys fun e p => e.commandKeys env client p)
  else if r.method = str!"exec" then some (e.withParams env r Params.string fun e p => e.commandExec env client p)
  else none

/-- `Response::new` for a command without a result: `()` is `null`. -/
def respond (id : RpcId) : Answer → Response
  | none => Response.new id (.ok .null)
  | some err => Response.new id (.error err)

/-- A line as a request (`line.parse()`). -/
def readLine (env : EditorEnv L) (line : Str) : Option Request := (env.parse line).bind Request.decode

/-- mod.rs:210-240 `handle`. -/
def handle (env : EditorEnv L) (e : Editor L) (client : Nat) (line : Str) : R (Editor L × Response) :=
  match readLine env line with
  | none => do
    let w ← e.core.error env.core (some client) str!"protocol" (env.lineError line ++ str!": " ++ line)
    return ({ e with core := w }, Response.invalidRequest .null line)
  | some r =>
    match e.dispatch env client r with
    | some run => do
      let (e, a) ← run
      return (e, respond r.id a)
    | none => do
      let w ← e.core.error env.core (some client) str!"protocol"
        (str!"unknown command: " ++ Json.write r.encode ++ ['\n'])
      return ({ e with core := w }, Response.methodNotFound r.id r.method)

/-- mod.rs:101-148 `new`; loading the prelude is the script `prelude`, which must not fail. -/
def new (env : EditorEnv L) (lua : L) (prelude : Script L) (session : Str) (cwd : Path) (args cwdText : Str) :
    R (Editor L) := do
  let w ← World.start env.core cwd args cwdText
  let (l, w, err) ← prelude lua w
  match err with
  | some _ => .error .unwrap
  | none => return { session := session, menus := defaultCommands, stopped := [], core := w, lua := l }

end Editor
end Ced

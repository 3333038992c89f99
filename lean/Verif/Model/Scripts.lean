import Verif.Model.Editor

/-!
# Model of the Lua scripts: `core/scripts/{prelude,editor,keys,utils}.lua`

The scripts are modelled as what they do with the engine's state (`LuaState`) and the editor's world.  What remains a
parameter (`LuaEngine`): the order in which `pairs` enumerates a table, the text of a run-time error, the value of
`package.path`, and what the arbitrary script of an `exec` request does.

The global `env` is set before each script by mod.rs:154-170 from the name of the session and the client; here the
scripts simply know them.  Model/LuaEnv models how Lua reads that name, and C78 says for which names this is right.
-/

namespace Ced

/-- core/scripts/editor.lua:117-129: what is kept of a client: the mode stack of its key handler (the current mode
last), and the texts of the entries `keys` and `mode` of its status line, once there. -/
structure LuaClient where
  modeStack : List Str
  keysText : Option Str
  modeText : Option Str
deriving DecidableEq, Repr

/-- core/scripts/editor.lua:23-29: `editor.clients`; and the name of the session (`env.session`). -/
structure LuaState where
  session : Str
  clients : Assoc Nat LuaClient
deriving DecidableEq, Repr

/-- What the scripts depend on. -/
structure LuaEngine where
  core : Env
  /-- the order of `pairs` -/
  pairs : List (Str × Str) → List (Str × Str)
  /-- the message of `attempt to index a nil value` -/
  nilError : Str
  /-- `package.path` -/
  path : Str
  exec : Nat → Str → Script LuaState

namespace Scripts

/-- core/scripts/keys.lua: the functions bound to keys. -/
inductive KeyFn where
  | enterMode (mode : Str)
  | exitMode
  | move (dir : CursorTarget) (extend : Bool)
  | goto (dir : CursorTarget) (extend : Bool)
  | message (text : Str)
  | error (text : Str)
  | deleteSelection
deriving DecidableEq, Repr

/-- core/scripts/keys.lua: a mapping: its description (if any) and its function. -/
structure Mapping where
  key : Str
  desc : Option Str
  fn : KeyFn
deriving DecidableEq, Repr

/-- core/scripts/keys.lua:35-133: a mode; `fallback` is the mapping called `default`. -/
structure Mode where
  name : Str
  title : Str
  hint : Bool
  mappings : List Mapping
  fallback : Option KeyFn
deriving DecidableEq, Repr

/-- core/scripts/keys.lua:13-34 `make_goto_mappings`. -/
def gotoMappings (extend : Bool) : List Mapping :=
  [⟨str!"h", some str!"line begin", .goto .lineBegin extend⟩, ⟨str!"l", some str!"line end", .goto .lineEnd extend⟩]

/-- core/scripts/keys.lua:35-133 `ModalHandler.modes`. -/
def modes : Assoc Str Mode :=
  [(str!"normal", { name := str!"N", title := [], hint := false, fallback := none, mappings :=
     [⟨str!"i", none, .enterMode str!"insertion"⟩, ⟨str!"g", none, .enterMode str!"moveto"⟩,
      ⟨str!"s-g", none, .enterMode str!"extendto"⟩,
      ⟨str!"h", none, .move .left false⟩, ⟨str!"j", none, .move .down false⟩,
      ⟨str!"k", none, .move .up false⟩, ⟨str!"l", none, .move .right false⟩,
      ⟨str!"s-h", none, .move .left true⟩, ⟨str!"s-j", none, .move .down true⟩,
      ⟨str!"s-k", none, .move .up true⟩, ⟨str!"s-l", none, .move .right true⟩,
      ⟨str!"m", none, .message str!"hello!"⟩, ⟨str!"e", none, .error str!"oops!"⟩, ⟨str!"d", none, .deleteSelection⟩] }),
   (str!"insertion", ⟨str!"I", [], false, [⟨str!"esc", none, .exitMode⟩], none⟩),
   (str!"moveto", ⟨str!"g", str!"move to", true, gotoMappings false, some .exitMode⟩),
   (str!"extendto", ⟨str!"G", str!"extend to", true, gotoMappings true, some .exitMode⟩)]

/-- `#text`: the length in bytes. -/
def len (s : Str) : Nat := (Str.encode s).length

/-- `string.rep`: nothing for a count that is not positive (so the truncated subtractions below are right). -/
def rep (s : Str) (n : Nat) : Str := (List.replicate n s).flatten

/-- core/scripts/utils.lua:37-45 `max_length`. -/
def maxLength (lines : List Str) : Nat := lines.foldl (fun m l => if len l > m then len l else m) 0

/-- core/scripts/editor.lua:64-83 `show_hint` with a frame. -/
def framed (lines : List Str) : List Str :=
  let width := maxLength lines
  (match lines with
   | [] => []
   | title :: rest =>
     (str!"╭─ " ++ title ++ str!" " ++ rep str!"─" (width - len title - 2) ++ str!"─╮") ::
       rest.map fun l => str!"│ " ++ (l ++ rep str!" " (width - len l)) ++ str!" │") ++
    [str!"╰─" ++ rep str!"─" width ++ str!"─╯"]

/-- core/scripts/keys.lua:155-170 `show_mode_hint`, with mod.rs:75-87 `show_hint`: the notification, if any. -/
def modeHint (eng : LuaEngine) (mode : Str) : Option Note :=
  match modes.get mode with
  | none => none
  | some m =>
    if m.hint then
      some (.hint (framed (m.title ::
        (eng.pairs (m.mappings.map fun x => (x.key, x.desc.getD []))).map fun kv => kv.1 ++ str!": " ++ kv.2)))
    else none

/-- core/scripts/keys.lua:142-145 `enter_mode`. -/
def enterMode (eng : LuaEngine) (client : Nat) (h : LuaClient) (w : World) (mode : Str) : LuaClient × World :=
  ({ h with modeStack := h.modeStack ++ [mode] },
    match modeHint eng mode with | some n => w.notify client n | none => w)

/-- core/scripts/keys.lua:147-149 `exit_mode`: `table.remove` takes the last one off. -/
def exitMode (h : LuaClient) : LuaClient := { h with modeStack := h.modeStack.dropLast }

/-- core/scripts/keys.lua:151-153 `curmode` and the mode of that name; `none` is `nil`. -/
def curMode (h : LuaClient) : Option Mode := h.modeStack.getLast?.bind modes.get

/-- core/scripts/keys.lua:13-133: what the functions bound to keys do. -/
def runFn (eng : LuaEngine) (client : Nat) (h : LuaClient) (w : World) : KeyFn → R (LuaClient × World)
  | .enterMode mode => .ok (enterMode eng client h w mode)
  | .exitMode => .ok (exitMode h, w)
  | .move dir extend => do return (h, ← w.moveCursor eng.core client dir extend)
  | .goto dir extend => do return (exitMode h, ← w.moveCursor eng.core client dir extend)
  | .message text => do return (h, ← w.message eng.core (some client) text)
  | .error text => do return (h, ← w.error eng.core (some client) str!"lua" text)
  | .deleteSelection => do
    let (w, _) ← w.deleteSelection eng.core client
    return (h, w)

/-- core/scripts/editor.lua:48-60 and mod.rs:58-74 `set_status_line`: the entries of the status line, sorted by their
index (80, 90, 100).  Simplification: the entries have distinct indices, so the sorted list is written down directly. -/
def statusItems (session : Str) (client : Nat) (h : LuaClient) : List (Int × Str) :=
  (match h.keysText with | some t => [((80 : Int), t)] | none => []) ++
  (match h.modeText with | some t => [((90 : Int), t)] | none => []) ++
  [((100 : Int), str!"[" ++ natStr client ++ str!"@" ++ session ++ str!"]")]

/-- core/scripts/editor.lua:57-60 `push_status_line`. -/
def pushStatus (session : Str) (client : Nat) (h : LuaClient) (w : World) : World :=
  w.notify client (.status (statusItems session client h))

/-- core/scripts/keys.lua:184-200 `handle`, 172-182 `set_status`, mod.rs:356-361; the key `default` of the mappings is
not the name of any key (see `display_ne_default`). -/
def handleKey (eng : LuaEngine) (client : Nat) (k : KeyEvent) : Script LuaState := fun l w =>
  match l.clients.get client with
  | none => .ok (l, w, some eng.nilError)
  | some h =>
    match curMode h with
    | none => .ok (l, w, some eng.nilError)
    | some mode =>
      match ((mode.mappings.find? fun m => m.key = k.display).map (·.fn)).or mode.fallback with
      | none => .ok (l, w, none)
      | some fn => do
        let (h, w) ← runFn eng client h w fn
        let h := { h with keysText := some k.display }
        match curMode h with
        | none => .ok ({ l with clients := l.clients.set client h }, w, some eng.nilError)
        | some mode =>
          let h := { h with modeText := some mode.name }
          .ok ({ l with clients := l.clients.set client h }, pushStatus l.session client h w, none)

/-- core/scripts/editor.lua:117-130 `add_client`, keys.lua:135-140 `ModalHandler.new`. -/
def addClient (client : Nat) : Script LuaState := fun l w =>
  let h : LuaClient := { modeStack := [str!"normal"], keysText := none, modeText := none }
  .ok ({ l with clients := l.clients.set client h }, pushStatus l.session client h w, none)

/-- core/scripts/editor.lua:133-135 `remove_client`. -/
def removeClient (client : Nat) : Script LuaState := fun l w => .ok ({ l with clients := l.clients.del client }, w, none)

/-- core/scripts/prelude.lua. -/
def prelude (eng : LuaEngine) : Script LuaState := fun l w => do
  let w ← w.debug eng.core str!"lua state ready"
  let w ← w.debug eng.core (str!"lua path: " ++ eng.path)
  return ({ l with clients := [] }, w, none)

/-- The scripts of ced. -/
def lua (eng : LuaEngine) : Lua LuaState where
  addClient := addClient
  removeClient := removeClient
  key := handleKey eng
  exec := eng.exec

end Scripts
end Ced

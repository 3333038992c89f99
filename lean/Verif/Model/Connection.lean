import Verif.Model.Requests
import Verif.Model.Wire
import Verif.Model.Server

/-!
# Model of `remote/src/connection.rs` and of the notifications of `remote/src/protocol.rs`

The decorated texts of the crate `ornament` (not in the sandbox) are values of a type `T`; how they are built, written
and read is a parameter (`Ornament`).  The state of a connection is behind a lock taken for one call at a time, so a
step of the client is the treatment of one line read from the server, or one call of a method.
-/

namespace Ced

/-- `ornament::Text<Face>`: how texts are built from what the server puts in them, and how serde writes and reads
them. -/
structure Ornament (T : Type) where
  faced : Str → Face → T
  fragments : List (Str × Face) → T
  decorated : DecoratedLine → T
  encode : T → Json
  decode : Json → Option T

/-- `PathBuf::display` (standard library; used by core/src/editor/core.rs:68), for an absolute path of the given components. -/
def displayPath : Path → Str
  | [] => ['/']
  | c :: cs => (c :: cs).flatMap fun c => '/' :: c

namespace Note
variable {T : Type}

/-- protocol.rs:102-106 `ViewParamsLens`, `Serialize`. -/
def encodeLens (o : Ornament T) (l : ViewParamsLens) : Json :=
  .obj [(str!"first_line_num", .num l.firstLineNum), (str!"lines", .arr (l.lines.map fun x => o.encode (o.decorated x)))]

/-- protocol.rs:108-114 `ViewParamsItem`, `Serialize`. -/
def encodeItem (o : Ornament T) (i : ViewParamsItem) : Json :=
  .obj [(str!"buffer", .str i.buffer), (str!"end", .num i.stop), (str!"lenses", .arr (i.lenses.map (encodeLens o))),
    (str!"start", .num i.start)]

/-- An optional string: `None` is `null`. -/
def encodeOption : Option Str → Json
  | some s => .str s
  | none => .null

/-- protocol.rs:79-84 `MenuParamsEntry`, `Serialize`. -/
def encodeEntry (o : Ornament T) (e : MenuParamsEntry) : Json :=
  .obj [(str!"description", encodeOption e.description), (str!"text", o.encode (o.fragments e.text)), (str!"value", .str e.value)]

/-- protocol.rs:60-65: the name of the method. -/
def method : Note → Str
  | echo _ _ => str!"echo"
  | hint _ => str!"hint"
  | info _ _ _ => str!"info"
  | menu _ _ _ _ => str!"menu"
  | status _ => str!"status"
  | view _ => str!"view"

/-- protocol.rs:60-116, jsonrpc.rs:81-96: the parameters as a value (`to_value`: members are in the order of their names). -/
def params (o : Ornament T) : Note → Json
  | echo text face => o.encode (o.faced text face)
  | hint lines => .obj [(str!"text", .arr (lines.map fun l => o.encode (o.faced l .default)))]
  | info client session cwd =>
    .obj [(str!"client", .str client), (str!"cwd", .str (displayPath cwd)), (str!"session", .str session)]
  | menu command title search entries =>
    .obj [(str!"command", .str command), (str!"entries", .arr (entries.map (encodeEntry o))), (str!"search", .str search),
      (str!"title", .str title)]
  | status items => .arr (items.map fun i => .obj [(str!"index", .num i.1), (str!"text", o.encode (o.faced i.2 .default))])
  | view items => .arr (items.map (encodeItem o))

/-- protocol.rs:38-42 `Notification::new`. -/
def notification (o : Ornament T) (n : Note) : Notification := Notification.new n.method (some (n.params o))
end Note

/-- server.rs:60-67 `write_client`: what is written on a connection. -/
def Wire.encode {T : Type} (o : Ornament T) : Wire → Json
  | .response r => r.encode
  | .note n => (n.notification o).encode

/-- protocol.rs:102-106 `ViewParamsLens`, as the client reads it. -/
structure RemoteLens (T : Type) where
  lines : List T
  firstLineNum : Nat
deriving DecidableEq

/-- protocol.rs:108-114 `ViewParamsItem`, as the client reads it. -/
structure RemoteItem (T : Type) where
  buffer : Str
  start : Nat
  stop : Nat
  lenses : List (RemoteLens T)
deriving DecidableEq

/-- protocol.rs:79-84 `MenuParamsEntry`, as the client reads it. -/
structure RemoteEntry (T : Type) where
  value : Str
  text : T
  description : Option Str
deriving DecidableEq

/-- connection.rs:14-21 `struct Menu`. -/
structure RemoteMenu (T : Type) where
  command : Str
  title : Str
  search : Str
  entries : List (RemoteEntry T)
  selected : Nat
deriving DecidableEq

namespace RemoteMenu
variable {T : Type}

/-- connection.rs:24-28 `select_next`; the subtraction overflows when there is no entry. -/
def selectNext (m : RemoteMenu T) : R (RemoteMenu T) := do
  let last ← subChecked m.entries.length 1
  return if m.selected < last then { m with selected := m.selected + 1 } else m

/-- connection.rs:30-34 `select_previous`. -/
def selectPrevious (m : RemoteMenu T) : RemoteMenu T :=
  if m.selected > 0 then { m with selected := m.selected - 1 } else m

/-- connection.rs:36-38 `selected_item`. -/
def selectedItem (m : RemoteMenu T) : R Str :=
  match m.entries[m.selected]? with
  | some e => .ok e.value
  | none => .error .index
end RemoteMenu

/-- connection.rs:41-51 `enum ConnectionEvent` (the text of an error of serde is not modelled). -/
inductive ConnectionEvent (T : Type) where
  | connErr
  | noop
  | echo (t : T)
  | hint (l : List T)
  | info (client session : Str)
  | menu (m : RemoteMenu T)
  | status (l : List (Int × T))
  | view (l : List (RemoteItem T))

namespace Reads
variable {T : Type}

/-- The range of `usize`. -/
def asUsize : Option Json → Option Nat
  | some (.num n) => if 0 ≤ n ∧ n < 18446744073709551616 then some n.toNat else none
  | _ => none

/-- The range of `isize`. -/
def asIsize : Option Json → Option Int
  | some (.num n) => if -9223372036854775808 ≤ n ∧ n < 9223372036854775808 then some n else none
  | _ => none

/-- A required field of type `Vec`. -/
def asVec {α : Type} (dec : Json → Option α) : Option Json → Option (List α)
  | some (.arr l) => l.mapM dec
  | _ => none

/-- A field of type `Option<String>`: absent or `null` is `None`. -/
def asOption : Option Json → Option (Option Str)
  | none => some none
  | some .null => some none
  | some (.str s) => some (some s)
  | _ => none

/-- A required field that is a text. -/
def asText (o : Ornament T) : Option Json → Option T
  | some j => o.decode j
  | none => none

/-- protocol.rs:67-70 `HintParams`, `Deserialize`. -/
def hint (o : Ornament T) (j : Json) : Option (List T) := do
  match ← Json.fields [str!"text"] j with
  | [t] => asVec o.decode t
  | _ => none

/-- protocol.rs:72-77 `InfoParams`, `Deserialize` (the directory is not used). -/
def info (j : Json) : Option (Str × Str) := do
  match ← Json.fields [str!"client", str!"session", str!"cwd"] j with
  | [c, s, d] => do
    let c ← Json.asStr c
    let s ← Json.asStr s
    let _ ← Json.asStr d
    return (c, s)
  | _ => none

/-- protocol.rs:79-84 `MenuParamsEntry`, `Deserialize`. -/
def entry (o : Ornament T) (j : Json) : Option (RemoteEntry T) := do
  match ← Json.fields [str!"value", str!"text", str!"description"] j with
  | [v, t, d] => do
    let v ← Json.asStr v
    let t ← asText o t
    let d ← asOption d
    return { value := v, text := t, description := d }
  | _ => none

/-- protocol.rs:86-92 `MenuParams`, `Deserialize`; connection.rs:92-98: as a menu whose first entry is selected. -/
def menu (o : Ornament T) (j : Json) : Option (RemoteMenu T) := do
  match ← Json.fields [str!"command", str!"title", str!"search", str!"entries"] j with
  | [c, t, s, e] => do
    let c ← Json.asStr c
    let t ← Json.asStr t
    let s ← Json.asStr s
    let e ← asVec (entry o) e
    return { command := c, title := t, search := s, entries := e, selected := 0 }
  | _ => none

/-- protocol.rs:94-98 `StatusParamsItem`, `Deserialize`. -/
def statusItem (o : Ornament T) (j : Json) : Option (Int × T) := do
  match ← Json.fields [str!"index", str!"text"] j with
  | [i, t] => do
    let i ← asIsize i
    let t ← asText o t
    return (i, t)
  | _ => none

/-- protocol.rs:100 `StatusParams`. -/
def status (o : Ornament T) (j : Json) : Option (List (Int × T)) := asVec (statusItem o) (some j)

/-- protocol.rs:102-106 `ViewParamsLens`, `Deserialize`. -/
def lens (o : Ornament T) (j : Json) : Option (RemoteLens T) := do
  match ← Json.fields [str!"lines", str!"first_line_num"] j with
  | [l, n] => do
    let l ← asVec o.decode l
    let n ← asUsize n
    return { lines := l, firstLineNum := n }
  | _ => none

/-- protocol.rs:108-114 `ViewParamsItem`, `Deserialize`. -/
def item (o : Ornament T) (j : Json) : Option (RemoteItem T) := do
  match ← Json.fields [str!"buffer", str!"start", str!"end", str!"lenses"] j with
  | [b, x, y, l] => do
    let b ← Json.asStr b
    let x ← asUsize x
    let y ← asUsize y
    let l ← asVec (lens o) l
    return { buffer := b, start := x, stop := y, lenses := l }
  | _ => none

/-- protocol.rs:116 `ViewParams`. -/
def view (o : Ornament T) (j : Json) : Option (List (RemoteItem T)) := asVec (item o) (some j)
end Reads

/-- connection.rs:55-63 `struct ConnectionState`. -/
structure ConnectionState (T : Type) where
  client : Str
  session : Str
  echo : Option T
  status : List (Int × T)
  view : List (RemoteItem T)
  menu : Option (RemoteMenu T)
deriving DecidableEq

/-- jsonrpc.rs:98-106 `params` of a notification, an error being treated as no parameters (connection.rs:71, 77, 82,
...). -/
def Notification.read {α : Type} (dec : Json → Option α) (n : Notification) : Option α :=
  match n.params with
  | none => none
  | some .null => none
  | some v => dec v

namespace ConnectionState
variable {T : Type}

/-- connection.rs:55 `Default`. -/
def empty : ConnectionState T := { client := [], session := [], echo := none, status := [], view := [], menu := none }

/-- connection.rs:66-123 `event_update`. -/
def eventUpdate (o : Ornament T) (s : ConnectionState T) : ClientEvent → ConnectionState T × Option (ConnectionEvent T)
  | .response _ => (s, none)
  | .notification n =>
    if n.method = str!"echo" then
      match n.read o.decode with
      | some t => ({ s with echo := some t }, some (.echo t))
      | none => (s, none)
    else if n.method = str!"hint" then (s, (n.read (Reads.hint o)).map .hint)
    else if n.method = str!"info" then
      match n.read Reads.info with
      | some (c, se) => ({ s with client := c, session := se }, some (.info c se))
      | none => (s, none)
    else if n.method = str!"menu" then
      match n.read (Reads.menu o) with
      | some m => ({ s with menu := some m, echo := none }, some (.menu m))
      | none => (s, none)
    else if n.method = str!"status" then
      match n.read (Reads.status o) with
      | some l => ({ s with status := l }, some (.status l))
      | none => (s, none)
    else if n.method = str!"view" then
      match n.read (Reads.view o) with
      | some l => ({ s with view := l }, some (.view l))
      | none => (s, none)
    else (s, none)
end ConnectionState

/-- connection.rs:126-131 `struct Connection`; `sent` are the requests put on the channel, in this order. -/
structure Connection (T : Type) where
  state : ConnectionState T
  sent : List Request
  nextRequestId : Int
deriving DecidableEq

namespace Connection
variable {T : Type}

/-- connection.rs:134-142 `new`. -/
def new : Connection T := { state := .empty, sent := [], nextRequestId := 0 }

/-- connection.rs:157-163, client.rs:39-43: the treatment of a line read from the server. -/
def receive (o : Ornament T) (parse : Str → Option Json) (c : Connection T) (line : Str) : Connection T × ConnectionEvent T :=
  match (parse line).bind ClientEvent.decode with
  | some e =>
    let (s, ev) := c.state.eventUpdate o e
    ({ c with state := s }, ev.getD .noop)
  | none => (c, .connErr)

/-- connection.rs:168-172 `request_id`: an `i32`, whose increment overflows. -/
def requestId (c : Connection T) : R (Connection T × RpcId) :=
  if c.nextRequestId + 1 ≤ 2147483647 then
    .ok ({ c with nextRequestId := c.nextRequestId + 1 }, .number c.nextRequestId)
  else .error .overflow

/-- connection.rs:174-176 `request` (the channel is unbounded and its receiver lives as long as the connection). -/
def request (c : Connection T) (r : Request) : Connection T := { c with sent := c.sent ++ [r] }

/-- connection.rs:178-196, 234-245 `quit`, `edit`, `menu`, `keys`, `exec`: a request of the protocol. -/
def call (c : Connection T) (x : Call) : R (Connection T) := do
  let (c, id) ← c.requestId
  return c.request (x.request id)

/-- connection.rs:230-232 `action_menu_cancel`. -/
def menuCancel (c : Connection T) : Connection T := { c with state := { c.state with menu := none } }

/-- connection.rs:198-216 `menu_select`. -/
def menuSelect (c : Connection T) : R (Connection T) :=
  match c.state.menu with
  | none => .ok c
  | some menu => do
    let selected ← menu.selectedItem
    let choice := if selected.isEmpty then menu.search else selected
    let c ← c.call (.menuSelect menu.command choice)
    return c.menuCancel

/-- connection.rs:218-222 `action_menu_select_previous`. -/
def menuPrevious (c : Connection T) : Connection T :=
  { c with state := { c.state with menu := c.state.menu.map RemoteMenu.selectPrevious } }

/-- connection.rs:224-228 `action_menu_select_next`. -/
def menuNext (c : Connection T) : R (Connection T) :=
  match c.state.menu with
  | none => .ok c
  | some menu => do
    let menu ← menu.selectNext
    return { c with state := { c.state with menu := some menu } }

/-- What happens to a connection: a line is read, or its user calls a method. -/
inductive Step where
  | line (l : Str)
  | call (x : Call)
  | menuSelect
  | menuNext
  | menuPrevious
  | menuCancel

/-- One step. -/
def step (o : Ornament T) (parse : Str → Option Json) (c : Connection T) : Step → R (Connection T)
  | .line l => .ok (c.receive o parse l).1
  | .call x => c.call x
  | .menuSelect => c.menuSelect
  | .menuNext => c.menuNext
  | .menuPrevious => .ok c.menuPrevious
  | .menuCancel => .ok c.menuCancel

/-- Steps, one after the other. -/
def run (o : Ornament T) (parse : Str → Option Json) (c : Connection T) (steps : List Step) : R (Connection T) :=
  steps.foldlM (step o parse) c

end Connection
end Ced

import Verif.Model.Rpc
import Verif.Model.Keys

/-! # Model of the requests of `remote/src/protocol.rs`: what the parameters look like on the wire -/

namespace Ced

/-- protocol.rs:151-178: the requests of the protocol, with their parameters. -/
inductive Call where
  | quit
  | edit (name : Str) (scratch : Bool)
  | view (id : Str)
  | viewDelete
  | viewAdd (buffer : Str)
  | viewRemove (buffer : Str)
  | menu (command search : Str)
  | menuSelect (command choice : Str)
  | keys (keys : List KeyEvent)
  | exec (source : Str)
deriving DecidableEq, Repr

namespace Call
/-- protocol.rs:151-160: the name of the method. -/
def method : Call → Str
  | quit => str!"quit"
  | edit _ _ => str!"edit"
  | view _ => str!"view"
  | viewDelete => str!"view-delete"
  | viewAdd _ => str!"view-add"
  | viewRemove _ => str!"view-remove"
  | menu _ _ => str!"menu"
  | menuSelect _ _ => str!"menu-select"
  | keys _ => str!"keys"
  | exec _ => str!"exec"

/-- protocol.rs:151-178, jsonrpc.rs:28-44: the parameters as a value (`to_value`: members are in the order of their names);
`()` is `null`. -/
def params : Call → Json
  | quit => .null
  | edit n s => .obj [(str!"name", .str n), (str!"scratch", .bool s)]
  | view v => .str v
  | viewDelete => .null
  | viewAdd b => .str b
  | viewRemove b => .str b
  | menu c s => .obj [(str!"command", .str c), (str!"search", .str s)]
  | menuSelect c s => .obj [(str!"choice", .str s), (str!"command", .str c)]
  | keys ks => .arr (ks.map KeyEvent.encode)
  | exec s => .str s

/-- protocol.rs:128-137 `Request::new`, `new_noarg`. -/
def request (id : RpcId) (c : Call) : Request := Request.new id c.method (some c.params)
end Call

namespace Params
/-- jsonrpc.rs:46-54 `params`: no parameters, parameters, or an error; `null` is no parameters (the value is read as
an `Option`). -/
def get {α : Type} (dec : Json → Option α) (r : Request) : Except Unit (Option α) :=
  match r.params with
  | none => .ok none
  | some .null => .ok none
  | some v =>
    match dec v with
    | some a => .ok (some a)
    | none => .error ()

/-- `String` from a value. -/
def string : Json → Option Str
  | .str s => some s
  | _ => none

/-- Two required fields. -/
def two (a b : Str) (j : Json) : Option (Option Json × Option Json) :=
  match Json.fields [a, b] j with
  | some [x, y] => some (x, y)
  | _ => none

/-- protocol.rs:162-166 `EditParams`. -/
def edit (j : Json) : Option (Str × Bool) := do
  let (x, y) ← two str!"name" str!"scratch" j
  let x ← Json.asStr x
  let y ← Json.asBool y
  return (x, y)

/-- protocol.rs:168-172 `MenuParams`. -/
def menu (j : Json) : Option (Str × Str) := do
  let (x, y) ← two str!"command" str!"search" j
  let x ← Json.asStr x
  let y ← Json.asStr y
  return (x, y)

/-- protocol.rs:174-178 `MenuSelectParams`. -/
def menuSelect (j : Json) : Option (Str × Str) := do
  let (x, y) ← two str!"command" str!"choice" j
  let x ← Json.asStr x
  let y ← Json.asStr y
  return (x, y)

/-- protocol.rs:159 `Vec<KeyEvent>`. -/
def keys : Json → Option (List KeyEvent)
  | .arr l => l.mapM KeyEvent.decode
  | _ => none
end Params

end Ced

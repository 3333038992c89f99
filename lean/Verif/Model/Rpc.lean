import Verif.Model.Json

/-!
# Model of `remote/src/jsonrpc.rs`

Messages and their encoding as JSON values.  Encoding (`Serialize`) never fails for these types.  Decoding is an
`Option`; the text of serde's error messages is not modelled.
-/

namespace Ced

/-- jsonrpc.rs:10-16 `enum Id` (the number is an `i32`). -/
inductive RpcId where
  | number (n : Int)
  | string (s : Str)
  | null
deriving DecidableEq, Repr

namespace RpcId
/-- jsonrpc.rs:10-11 `Serialize` (untagged). -/
def encode : RpcId → Json
  | number n => .num n
  | string s => .str s
  | null => .null

/-- jsonrpc.rs:10-11 `Deserialize` (untagged: the variants are tried in turn). -/
def decode : Json → Option RpcId
  | .num n => if Json.isI32 n then some (number n) else none
  | .str s => some (string s)
  | .null => some null
  | _ => none
end RpcId

/-- The value of `jsonrpc` in the messages ced builds. -/
def V2 : Str := str!"2.0"

/-- jsonrpc.rs:18-25 `struct Request`. -/
structure Request where
  jsonrpc : Str
  id : RpcId
  method : Str
  params : Option Json
deriving DecidableEq, Repr

/-- The member of an optional field that is skipped when absent (`skip_serializing_if`). -/
def optMember (name : Str) : Option Json → List (Str × Json)
  | some v => [(name, v)]
  | none => []

namespace Request
/-- jsonrpc.rs:28-44 `new`, the parameters being already a value. -/
def new (id : RpcId) (method : Str) (params : Option Json) : Request :=
  { jsonrpc := V2, id := id, method := method, params := params }

/-- jsonrpc.rs:18, 65-70 `Serialize`, `Display`. -/
def encode (r : Request) : Json :=
  .obj ([(str!"jsonrpc", .str r.jsonrpc), (str!"id", r.id.encode), (str!"method", .str r.method)] ++
    optMember str!"params" r.params)

/-- jsonrpc.rs:18, 57-63 `Deserialize`, `FromStr`. -/
def decode (j : Json) : Option Request := do
  let fs ← Json.fields [str!"jsonrpc", str!"id", str!"method", str!"params"] j
  match fs with
  | [v, id, m, p] => do
    let v ← Json.asStr v
    let id ← id
    let id ← RpcId.decode id
    let m ← Json.asStr m
    return { jsonrpc := v, id := id, method := m, params := Json.asValue p }
  | _ => none
end Request

/-- jsonrpc.rs:72-78 `struct Notification`. -/
structure Notification where
  jsonrpc : Str
  method : Str
  params : Option Json
deriving DecidableEq, Repr

namespace Notification
/-- jsonrpc.rs:81-96 `new`. -/
def new (method : Str) (params : Option Json) : Notification := { jsonrpc := V2, method := method, params := params }

/-- jsonrpc.rs:72, 117-122 `Serialize`, `Display`. -/
def encode (n : Notification) : Json :=
  .obj ([(str!"jsonrpc", .str n.jsonrpc), (str!"method", .str n.method)] ++ optMember str!"params" n.params)

/-- jsonrpc.rs:72, 109-115 `Deserialize`, `FromStr`. -/
def decode (j : Json) : Option Notification := do
  let fs ← Json.fields [str!"jsonrpc", str!"method", str!"params"] j
  match fs with
  | [v, m, p] => do
    let v ← Json.asStr v
    let m ← Json.asStr m
    return { jsonrpc := v, method := m, params := Json.asValue p }
  | _ => none
end Notification

/-- jsonrpc.rs:124-129 `struct Error` (the code is an `i32`). -/
structure RpcError where
  code : Int
  message : Str
  data : Option Json
deriving DecidableEq, Repr

namespace RpcError
/-- jsonrpc.rs:165-172 `invalid_request`. -/
def invalidRequest (source : Str) : RpcError :=
  { code := -32600, message := str!"The JSON sent is not a valid Request object.", data := some (.str source) }
/-- jsonrpc.rs:174-181 `method_not_found`. -/
def methodNotFound (method : Str) : RpcError :=
  { code := -32601, message := str!"The method does not exist / is not available.", data := some (.str method) }
/-- jsonrpc.rs:183-185 `invalid_params`. -/
def invalidParams (reason : Str) : RpcError :=
  { code := -32602, message := str!"Invalid method parameter(s).", data := some (.str reason) }
/-- jsonrpc.rs:187-189 `internal_error`. -/
def internalError (details : Str) : RpcError :=
  { code := -32603, message := str!"Internal JSON-RPC error.", data := some (.str details) }

/-- jsonrpc.rs:124 `Serialize`: absent data is written as `null`. -/
def encode (e : RpcError) : Json :=
  .obj [(str!"code", .num e.code), (str!"message", .str e.message), (str!"data", e.data.getD .null)]

/-- jsonrpc.rs:124 `Deserialize`. -/
def decode (j : Json) : Option RpcError := do
  let fs ← Json.fields [str!"code", str!"message", str!"data"] j
  match fs with
  | [c, m, d] => do
    let c ← Json.asI32 c
    let m ← Json.asStr m
    return { code := c, message := m, data := Json.asValue d }
  | _ => none
end RpcError

/-- jsonrpc.rs:201-209 `struct Response`. -/
structure Response where
  jsonrpc : Str
  id : RpcId
  result : Option Json
  error : Option RpcError
deriving DecidableEq, Repr

namespace Response
/-- jsonrpc.rs:212-224, 236-252 `new`, `set_result`; the result is already a value. -/
def new (id : RpcId) (result : Except RpcError Json) : Response :=
  match result with
  | .ok v => { jsonrpc := V2, id := id, result := some v, error := none }
  | .error e => { jsonrpc := V2, id := id, result := none, error := some e }
/-- jsonrpc.rs:269-276 `invalid_request`. -/
def invalidRequest (id : RpcId) (source : Str) : Response := new id (.error (.invalidRequest source))
/-- jsonrpc.rs:278-285 `method_not_found`. -/
def methodNotFound (id : RpcId) (method : Str) : Response := new id (.error (.methodNotFound method))

/-- jsonrpc.rs:226-234 `result`; the result is left as a value.  The error is unwrapped without a check. -/
def getResult (r : Response) : R (Except RpcError Json) :=
  match r.result with
  | some v => .ok (.ok v)
  | none => do
    let e ← unwrapR r.error
    return .error e

/-- jsonrpc.rs:201, 305-310 `Serialize`, `Display`. -/
def encode (r : Response) : Json :=
  .obj ([(str!"jsonrpc", .str r.jsonrpc), (str!"id", r.id.encode)] ++ optMember str!"result" r.result ++
    optMember str!"error" (r.error.map RpcError.encode))

/-- A field of type `Option<Error>`. -/
def asError : Option Json → Option (Option RpcError)
  | none => some none
  | some .null => some none
  | some j => (RpcError.decode j).map some

/-- jsonrpc.rs:201, 297-303 `Deserialize`, `FromStr`. -/
def decode (j : Json) : Option Response := do
  let fs ← Json.fields [str!"jsonrpc", str!"id", str!"result", str!"error"] j
  match fs with
  | [v, id, r, e] => do
    let v ← Json.asStr v
    let id ← id
    let id ← RpcId.decode id
    let e ← asError e
    return { jsonrpc := v, id := id, result := Json.asValue r, error := e }
  | _ => none
end Response

/-- jsonrpc.rs:312-317 `enum ClientEvent`. -/
inductive ClientEvent where
  | notification (n : Notification)
  | response (r : Response)
deriving DecidableEq, Repr

namespace ClientEvent
/-- jsonrpc.rs:339-348 `Display`. -/
def encode : ClientEvent → Json
  | notification n => n.encode
  | response r => r.encode
/-- jsonrpc.rs:312-313, 331-337 `Deserialize` (untagged: a notification is tried first), `FromStr`. -/
def decode (j : Json) : Option ClientEvent :=
  match Notification.decode j with
  | some n => some (.notification n)
  | none => (Response.decode j).map .response
end ClientEvent

end Ced

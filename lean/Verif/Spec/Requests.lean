import Verif.Model.Requests
import Batteries.Data.List.Basic

/-! # What a request must look like -/

namespace Ced.Spec

/-- The methods of the protocol. -/
def methods : List Str :=
  [str!"edit", str!"quit", str!"view", str!"view-delete", str!"view-add", str!"view-remove", str!"menu",
   str!"menu-select", str!"keys", str!"exec"]

/-- Those without parameters. -/
def bareMethods : List Str := [str!"quit", str!"view-delete"]

/-- A string. -/
def IsStr (j : Json) : Prop := ∃ s, j = .str s
/-- A truth value. -/
def IsBool (j : Json) : Prop := ∃ b, j = .bool b

/-- An object where each of these members is present once and has its type (other members are ignored), or an array
with these elements in this order. -/
def HasFields (fs : List (Str × (Json → Prop))) : Json → Prop
  | .obj l => ∀ f ∈ fs, ∃ v, l.filter (fun m => m.1 = f.1) = [(f.1, v)] ∧ f.2 v
  | .arr l => l.length = fs.length ∧ ∀ p ∈ fs.zip l, p.1.2 p.2
  | _ => False

/-- A structure written in JSON: an object where each of these names occurs once, with this value, or, where there is
none, does not occur (other members are ignored); or an array with these values in this order. -/
def Fields (names : List Str) (vs : List (Option Json)) : Json → Prop
  | .obj l => List.Forall₂ (fun n v =>
      match v with
      | some v => l.filter (fun m => m.1 = n) = [(n, v)]
      | none => ∀ m ∈ l, m.1 ≠ n) names vs
  | .arr l => l.length = names.length ∧ l.map some = vs
  | _ => False

/-- The names of the keys without a character. -/
def keyNames : List (Str × Key) :=
  [(str!"Backspace", .backspace), (str!"Enter", .enter), (str!"Escape", .escape), (str!"Up", .up), (str!"Down", .down),
   (str!"Left", .left), (str!"Right", .right)]

/-- A key in JSON: `{"Char": "x"}`, `"Escape"` or `{"Escape": null}`. -/
def KeyOf (j : Json) (k : Key) : Prop :=
  (∃ c, j = .obj [(str!"Char", .str [c])] ∧ k = .char c) ∨
    ∃ n, (n, k) ∈ keyNames ∧ (j = .str n ∨ j = .obj [(n, .null)])

/-- A key press in JSON. -/
def KeyEventOf (j : Json) (e : KeyEvent) : Prop :=
  ∃ k, Fields [str!"ctrl", str!"alt", str!"shift", str!"key"]
    [some (.bool e.ctrl), some (.bool e.alt), some (.bool e.shift), some k] j ∧ KeyOf k e.key

/-- These parameters are those of this call. -/
def ParamsOf (j : Json) : Call → Prop
  | .quit => True
  | .viewDelete => True
  | .edit n s => Fields [str!"name", str!"scratch"] [some (.str n), some (.bool s)] j
  | .view v => j = .str v
  | .viewAdd b => j = .str b
  | .viewRemove b => j = .str b
  | .menu c s => Fields [str!"command", str!"search"] [some (.str c), some (.str s)] j
  | .menuSelect c s => Fields [str!"command", str!"choice"] [some (.str c), some (.str s)] j
  | .keys ks => ∃ l, j = .arr l ∧ List.Forall₂ KeyEventOf l ks
  | .exec s => j = .str s

/-- The request asks for this call. -/
def AsksFor (q : Request) (c : Call) : Prop :=
  q.method = c.method ∧ (q.method ∈ bareMethods ∨ ∃ j, q.params = some j ∧ ParamsOf j c)

/-- An identifier in JSON. -/
def IdOf (j : Json) : RpcId → Prop
  | .number n => j = .num n ∧ -2147483648 ≤ n ∧ n ≤ 2147483647
  | .string s => j = .str s
  | .null => j = .null

/-- A request in JSON; parameters that are `null` count as absent. -/
def RequestOf (j : Json) (q : Request) : Prop :=
  ∃ id p, Fields [str!"jsonrpc", str!"id", str!"method", str!"params"]
    [some (.str q.jsonrpc), some id, some (.str q.method), p] j ∧ IdOf id q.id ∧
    (p = q.params ∧ p ≠ some .null ∨ p = some .null ∧ q.params = none)

/-- The parameters have the type the method requires. -/
def WellTyped (method : Str) (j : Json) : Prop :=
  (method = str!"edit" → HasFields [(str!"name", IsStr), (str!"scratch", IsBool)] j) ∧
  (method ∈ [str!"view", str!"view-add", str!"view-remove", str!"exec"] → IsStr j) ∧
  (method = str!"menu" → HasFields [(str!"command", IsStr), (str!"search", IsStr)] j) ∧
  (method = str!"menu-select" → HasFields [(str!"command", IsStr), (str!"choice", IsStr)] j) ∧
  (method = str!"keys" → ∃ l, j = .arr l ∧ ∀ k ∈ l, ∃ e, KeyEventOf k e)

/-- The errors a response can have: those of JSON-RPC, and that of a script. -/
def errorTexts : List (Int × Str) :=
  [(-32600, str!"The JSON sent is not a valid Request object."),
   (-32601, str!"The method does not exist / is not available."),
   (-32602, str!"Invalid method parameter(s)."),
   (-32603, str!"Internal JSON-RPC error."),
   (1, str!"exec error")]

end Ced.Spec

import Verif.Spec.Requests
import Verif.Spec.Connection

/-! # What a line read by a connection says -/

namespace Ced.Spec
variable {T : Type}

/-- A list of texts in JSON. -/
def TextsOf (o : Ornament T) (v : Json) (l : List T) : Prop :=
  ∃ js, v = .arr js ∧ List.Forall₂ (fun j t => o.decode j = some t) js l

/-- A number that is not negative, of 64 bits, in JSON. -/
def NatOf (v : Json) (n : Nat) : Prop := v = .num n ∧ n < 2 ^ 64

/-- A number of 64 bits in JSON. -/
def IntOf (v : Json) (n : Int) : Prop := v = .num n ∧ -2 ^ 63 ≤ n ∧ n < 2 ^ 63

/-- An optional string in JSON: absent, `null` or a string. -/
def OptStrOf (v : Option Json) (d : Option Str) : Prop :=
  match d with
  | none => v = none ∨ v = some .null
  | some s => v = some (.str s)

/-- An entry of a menu in JSON. -/
def EntryOf (o : Ornament T) (j : Json) (e : RemoteEntry T) : Prop :=
  ∃ t d, Fields [str!"value", str!"text", str!"description"] [some (.str e.value), some t, d] j ∧
    o.decode t = some e.text ∧ OptStrOf d e.description

/-- A menu in JSON; its first entry is the highlighted one. -/
def MenuOf (o : Ornament T) (j : Json) (m : RemoteMenu T) : Prop :=
  ∃ es, Fields [str!"command", str!"title", str!"search", str!"entries"]
      [some (.str m.command), some (.str m.title), some (.str m.search), some (.arr es)] j ∧
    List.Forall₂ (EntryOf o) es m.entries ∧ m.selected = 0

/-- A part of a status line in JSON. -/
def StatusItemOf (o : Ornament T) (j : Json) (i : Int × T) : Prop :=
  ∃ n t, Fields [str!"index", str!"text"] [some n, some t] j ∧ IntOf n i.1 ∧ o.decode t = some i.2

/-- A lens in JSON. -/
def LensOf (o : Ornament T) (j : Json) (l : RemoteLens T) : Prop :=
  ∃ ts n, Fields [str!"lines", str!"first_line_num"] [some ts, some n] j ∧ TextsOf o ts l.lines ∧ NatOf n l.firstLineNum

/-- A buffer of a view in JSON. -/
def ItemOf (o : Ornament T) (j : Json) (i : RemoteItem T) : Prop :=
  ∃ x y ls, Fields [str!"buffer", str!"start", str!"end", str!"lenses"]
      [some (.str i.buffer), some x, some y, some (.arr ls)] j ∧
    NatOf x i.start ∧ NatOf y i.stop ∧ List.Forall₂ (LensOf o) ls i.lenses

/-- The notification of this method with these parameters says this. -/
def Says (o : Ornament T) (method : Str) (j : Json) : ConnectionEvent T → Prop
  | .echo t => method = str!"echo" ∧ o.decode j = some t
  | .hint l => method = str!"hint" ∧ ∃ ts, Fields [str!"text"] [some ts] j ∧ TextsOf o ts l
  | .info c s => method = str!"info" ∧
    ∃ d, Fields [str!"client", str!"session", str!"cwd"] [some (.str c), some (.str s), some (.str d)] j
  | .menu m => method = str!"menu" ∧ MenuOf o j m
  | .status l => method = str!"status" ∧ ∃ js, j = .arr js ∧ List.Forall₂ (StatusItemOf o) js l
  | .view l => method = str!"view" ∧ ∃ js, j = .arr js ∧ List.Forall₂ (ItemOf o) js l
  | .connErr => False
  | .noop => False

/-- A notification in JSON, with its parameters if it has some (parameters that are `null` count as absent). -/
def NotificationOf (j : Json) (method : Str) (params : Option Json) : Prop :=
  ∃ v p, Fields [str!"jsonrpc", str!"method", str!"params"] [some (.str v), some (.str method), p] j ∧
    (p = params ∧ p ≠ some .null ∨ p = some .null ∧ params = none)

/-- The error of a response in JSON: absent, `null`, or with a code of 32 bits, a message and perhaps data. -/
def ErrorOk (v : Option Json) : Prop :=
  v = none ∨ v = some .null ∨ ∃ j c m d, v = some j ∧
    Fields [str!"code", str!"message", str!"data"] [some (.num c), some (.str m), d] j ∧ -2147483648 ≤ c ∧ c ≤ 2147483647

/-- A response in JSON. -/
def IsResponse (j : Json) : Prop :=
  ∃ v i id r e, Fields [str!"jsonrpc", str!"id", str!"result", str!"error"] [some (.str v), some i, r, e] j ∧
    IdOf i id ∧ ErrorOk e

/-- The line says this. -/
def LineSays (o : Ornament T) (parse : Str → Option Json) (line : Str) (e : ConnectionEvent T) : Prop :=
  ∃ j m p, parse line = some j ∧ NotificationOf j m (some p) ∧ Says o m p e

/-- The line is a notification, of any kind, or a response. -/
def IsMessage (parse : Str → Option Json) (line : Str) : Prop :=
  ∃ j, parse line = some j ∧ ((∃ m p, NotificationOf j m p) ∨ IsResponse j)

/-- What a connection knows once it was told this. -/
def told (s : ConnectionState T) : ConnectionEvent T → ConnectionState T
  | .echo t => { s with echo := some t }
  | .info c se => { s with client := c, session := se }
  | .menu m => { s with menu := some m, echo := none }
  | .status l => { s with status := l }
  | .view l => { s with view := l }
  | _ => s

end Ced.Spec

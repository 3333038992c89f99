import Verif.Model.Json

/-! # Model of `remote/src/keys.rs` -/

namespace Ced

/-- keys.rs:4-16 `enum Key`. -/
inductive Key where
  | char (c : Char)
  | backspace
  | enter
  | escape
  | up
  | down
  | left
  | right
deriving DecidableEq, Repr

/-- `char::to_ascii_lowercase`. -/
def asciiLower (c : Char) : Char := if 65 ≤ c.toNat ∧ c.toNat ≤ 90 then Char.ofNat (c.toNat + 32) else c

/-- `char::is_ascii_uppercase`. -/
def isAsciiUpper (c : Char) : Bool := decide (65 ≤ c.toNat ∧ c.toNat ≤ 90)

namespace Key
/-- keys.rs:24-40 `Display`. -/
def display : Key → Str
  | char c => [asciiLower c]
  | backspace => str!"bkspc"
  | enter => str!"ret"
  | escape => str!"esc"
  | up => str!"up"
  | down => str!"down"
  | left => str!"left"
  | right => str!"right"

/-- keys.rs:47-62 `FromStr`. -/
def parse (s : Str) : Option Key :=
  match s with
  | [c] => some (char c)
  | _ => if s = str!"esc" then some escape else none
end Key

/-- keys.rs:64-70 `struct KeyEvent`. -/
structure KeyEvent where
  ctrl : Bool
  alt : Bool
  shift : Bool
  key : Key
deriving DecidableEq, Repr

namespace KeyEvent
/-- keys.rs:72-79 `From<Key>`. -/
def ofKey (k : Key) : KeyEvent := { ctrl := false, alt := false, shift := false, key := k }

/-- keys.rs:85-96: one modifier prefix; `s` is the source from the cursor on (the prefixes are ASCII, so the byte and
the character positions agree). -/
def strip (p s : Str) : Bool × Str := if p.isPrefixOf s then (true, s.drop 2) else (false, s)

/-- keys.rs:81-105 `From<&str>`; an unknown key name panics. -/
def ofStr (s : Str) : R KeyEvent := do
  let c := strip ['c', '-'] s
  let a := strip ['a', '-'] c.2
  let sh := strip ['s', '-'] a.2
  let k ← unwrapR (Key.parse sh.2)
  return { ctrl := c.1, alt := a.1, shift := sh.1, key := k }

/-- keys.rs:107-115 `From<char>`. -/
def ofChar (c : Char) : KeyEvent := { ctrl := false, alt := false, shift := isAsciiUpper c, key := .char (asciiLower c) }

/-- keys.rs:117-131 `Display`. -/
def display (e : KeyEvent) : Str :=
  (if e.ctrl then ['c', '-'] else []) ++ (if e.alt then ['a', '-'] else []) ++ (if e.shift then ['s', '-'] else []) ++
    e.key.display

/-- keys.rs:4 `Serialize` of a key (externally tagged). -/
def encodeKey : Key → Json
  | .char c => .obj [(str!"Char", .str [c])]
  | .backspace => .str str!"Backspace"
  | .enter => .str str!"Enter"
  | .escape => .str str!"Escape"
  | .up => .str str!"Up"
  | .down => .str str!"Down"
  | .left => .str str!"Left"
  | .right => .str str!"Right"

/-- The keys without a value, by name. -/
def named : List (Str × Key) :=
  [(str!"Backspace", .backspace), (str!"Enter", .enter), (str!"Escape", .escape), (str!"Up", .up),
   (str!"Down", .down), (str!"Left", .left), (str!"Right", .right)]

/-- keys.rs:4 `Deserialize` of a key: a name, or an object with one member. -/
def decodeKey : Json → Option Key
  | .str s => named.lookup s
  | .obj [(k, v)] =>
    if k = str!"Char" then (match v with | .str [c] => some (.char c) | _ => none)
    else match named.lookup k with
      | some key => if v = .null then some key else none
      | none => none
  | _ => none

/-- keys.rs:64 `Serialize`, as a value (members are in the order of their names). -/
def encode (e : KeyEvent) : Json :=
  .obj [(str!"alt", .bool e.alt), (str!"ctrl", .bool e.ctrl), (str!"key", encodeKey e.key), (str!"shift", .bool e.shift)]

/-- keys.rs:64 `Deserialize`. -/
def decode (j : Json) : Option KeyEvent := do
  let fs ← Json.fields [str!"ctrl", str!"alt", str!"shift", str!"key"] j
  match fs with
  | [c, a, s, k] => do
    let c ← Json.asBool c
    let a ← Json.asBool a
    let s ← Json.asBool s
    let k ← k
    let k ← decodeKey k
    return { ctrl := c, alt := a, shift := s, key := k }
  | _ => none
end KeyEvent
end Ced

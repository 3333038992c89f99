import Verif.Model.Json

/-!
# A reader of JSON text

The theorems about lines of text assume of the parser only that it reads the messages the writer wrote (`ReadsBack`).  This
is a parser that does; it also serves to run concrete sessions.  It accepts less than `serde_json` (no blanks, no fractions).
-/

namespace Ced.JsonText

/-- A hexadecimal digit. -/
def hexValue (c : Char) : Option Nat :=
  if 48 ≤ c.toNat ∧ c.toNat ≤ 57 then some (c.toNat - 48)
  else if 97 ≤ c.toNat ∧ c.toNat ≤ 102 then some (c.toNat - 87)
  else none

/-- The rest of a string, after the opening quote. -/
def strBody : Str → Option (Str × Str)
  | [] => none
  | '"' :: r => some ([], r)
  | '\\' :: 'u' :: '0' :: '0' :: a :: b :: r => do
    let x ← hexValue a
    let y ← hexValue b
    let (s, r) ← strBody r
    return (Char.ofNat (16 * x + y) :: s, r)
  | '\\' :: c :: r => do
    let d ← if c = '"' then some '"' else if c = '\\' then some '\\' else if c = 'b' then some (Char.ofNat 8)
      else if c = 't' then some (Char.ofNat 9) else if c = 'n' then some (Char.ofNat 10)
      else if c = 'f' then some (Char.ofNat 12) else if c = 'r' then some (Char.ofNat 13) else none
    let (s, r) ← strBody r
    return (d :: s, r)
  | c :: r => if c.toNat < 32 then none else do
    let (s, r) ← strBody r
    return (c :: s, r)

/-- The digits at the beginning. -/
def digits : Str → Str × Str
  | [] => ([], [])
  | c :: r => if c.isDigit then let (d, s) := digits r; (c :: d, s) else ([], c :: r)

/-- An integer. -/
def int (s : Str) : Option (Int × Str) :=
  match s with
  | '-' :: r =>
    let (d, r) := digits r
    if d = [] then none else some (-(Nat.ofDigitChars 10 d 0 : Int), r)
  | r =>
    let (d, r) := digits r
    if d = [] then none else some ((Nat.ofDigitChars 10 d 0 : Int), r)

/-- A number. -/
def number (s : Str) : Option (Json × Str) := do
  let (m, r) ← int s
  match r with
  | 'e' :: r => do
    let (e, r) ← int r
    return (.frac m e, r)
  | r => return (.num m, r)

mutual
/-- A value at the beginning of a text, and what follows it. -/
def value : Nat → Str → Option (Json × Str)
  | 0, _ => none
  | f + 1, s =>
    match s with
    | 'n' :: 'u' :: 'l' :: 'l' :: r => some (.null, r)
    | 't' :: 'r' :: 'u' :: 'e' :: r => some (.bool true, r)
    | 'f' :: 'a' :: 'l' :: 's' :: 'e' :: r => some (.bool false, r)
    | '"' :: r => (strBody r).map fun x => (.str x.1, x.2)
    | '[' :: ']' :: r => some (.arr [], r)
    | '[' :: r => (elements f r).map fun x => (.arr x.1, x.2)
    | '{' :: '}' :: r => some (.obj [], r)
    | '{' :: r => (members f r).map fun x => (.obj x.1, x.2)
    | r => number r
/-- The elements of an array and the closing bracket. -/
def elements : Nat → Str → Option (List Json × Str)
  | 0, _ => none
  | f + 1, s =>
    match value f s with
    | some (a, ',' :: r) => (elements f r).map fun x => (a :: x.1, x.2)
    | some (a, ']' :: r) => some ([a], r)
    | _ => none
/-- The members of an object and the closing brace. -/
def members : Nat → Str → Option (List (Str × Json) × Str)
  | 0, _ => none
  | f + 1, s =>
    match s with
    | '"' :: r =>
      match strBody r with
      | some (k, ':' :: r) =>
        match value f r with
        | some (a, ',' :: r) => (members f r).map fun x => ((k, a) :: x.1, x.2)
        | some (a, '}' :: r) => some ([(k, a)], r)
        | _ => none
      | _ => none
    | _ => none
end

/-- A text that is a value. -/
def parse (s : Str) : Option Json :=
  match value (s.length + 1) s with
  | some (j, []) => some j
  | _ => none

/-- The values that `serde_json` reads as they are written, within so many levels of nesting: integers of 64 bits, no
fractions, and objects whose members are in the order of their names, each name once (`serde_json::Value` keeps its members in
a `BTreeMap`; of members of the same name it keeps the last). -/
inductive Plain : Nat → Json → Prop
  | null {d} : Plain d .null
  | bool {d} (b : Bool) : Plain d (.bool b)
  | str {d} (s : Str) : Plain d (.str s)
  | num {d} {n : Int} (lo : -2 ^ 63 ≤ n) (hi : n < 2 ^ 64) : Plain d (.num n)
  | arr {d} {l : List Json} (h : ∀ j ∈ l, Plain d j) : Plain (d + 1) (.arr l)
  | obj {d} {l : List (Str × Json)} (hs : (l.map Prod.fst).Pairwise (· < ·)) (h : ∀ x ∈ l, Plain d x.2) :
    Plain (d + 1) (.obj l)

/-- The messages that are read as they are written: an object, with each name once, whose members are values (within the 127
levels `serde_json` accepts in all), except `error`, which is a structure of values. -/
def Message : Json → Prop
  | .obj l => (l.map Prod.fst).Nodup ∧ ∀ x ∈ l, Plain 126 x.2 ∨
      x.1 = str!"error" ∧ ∃ m, x.2 = .obj m ∧ (m.map Prod.fst).Nodup ∧ ∀ y ∈ m, Plain 125 y.2
  | _ => False

/-- The contract of a parser of messages.  The parser stands for `serde_json::from_str` on the messages of
remote/src/jsonrpc.rs: it gives the members of a message in the order of the text, and their values as `serde_json::Value`
holds them (members sorted, the last of those of the same name), except `error`, given as in the text.  Messages as above are
read as they were written; whatever is read from the text of an object is an object with the same names. -/
structure ReadsBack (parse : Str → Option Json) : Prop where
  back : ∀ j, Message j → parse j.write = some j
  names : ∀ l j, parse (Json.obj l).write = some j → ∃ l', j = .obj l' ∧ l'.map Prod.fst = l.map Prod.fst

/-- A member put into an object of `serde_json::Value`: at its place in the order of names, instead of one of the same name. -/
def put (k : Str) (v : Json) : List (Str × Json) → List (Str × Json)
  | [] => [(k, v)]
  | (k', v') :: l => if k = k' then (k, v) :: l else if k < k' then (k, v) :: (k', v') :: l else (k', v') :: put k v l

mutual
/-- A value as `serde_json::Value` holds it. -/
def held : Json → Json
  | .arr l => .arr (heldList l)
  | .obj l => .obj (heldObj [] l)
  | j => j
/-- The elements of an array. -/
def heldList : List Json → List Json
  | [] => []
  | j :: l => held j :: heldList l
/-- The members of an object, put one after the other. -/
def heldObj (acc : List (Str × Json)) : List (Str × Json) → List (Str × Json)
  | [] => acc
  | (k, v) :: l => heldObj (put k (held v) acc) l
end

/-- A message as `serde_json` reads it: its members are values, except `error`. -/
def message : Json → Json
  | .obj l => .obj (l.map fun x => (x.1, if x.1 = str!"error" then x.2 else held x.2))
  | .arr l => .arr (l.map held)
  | j => j

/-- A reader of messages that holds values as `serde_json` does. -/
def parseMessage (s : Str) : Option Json := (parse s).map message

end Ced.JsonText

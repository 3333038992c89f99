import Verif.Model.Str

/-!
# JSON values and their text

The contract assumed of `serde`/`serde_json` (not in the sandbox), as far as ced uses them.  Objects are lists of
members in the order of the text; a number is an integer or a decimal fraction `m·10^e`.
-/

namespace Ced

/-- `serde_json::Value` (also used for what is read from the wire before it is given a type). -/
inductive Json where
  | null
  | bool (b : Bool)
  | num (n : Int)
  | frac (m e : Int)
  | str (s : Str)
  | arr (l : List Json)
  | obj (l : List (Str × Json))
deriving Repr

namespace Json

mutual
/-- equality of values -/
def beq : Json → Json → Bool
  | null, null => true
  | bool a, bool b => decide (a = b)
  | num a, num b => decide (a = b)
  | frac a b, frac c d => decide (a = c ∧ b = d)
  | str a, str b => decide (a = b)
  | arr a, arr b => beqList a b
  | obj a, obj b => beqObj a b
  | _, _ => false
/-- equality of arrays -/
def beqList : List Json → List Json → Bool
  | [], [] => true
  | a :: as, b :: bs => beq a b && beqList as bs
  | _, _ => false
/-- equality of objects -/
def beqObj : List (Str × Json) → List (Str × Json) → Bool
  | [], [] => true
  | (k, a) :: as, (k', b) :: bs => decide (k = k') && beq a b && beqObj as bs
  | _, _ => false
end

mutual
theorem beq_iff : ∀ a b : Json, beq a b = true ↔ a = b
  | null, b => by cases b <;> simp [beq]
  | bool x, b => by cases b <;> simp [beq]
  | num x, b => by cases b <;> simp [beq]
  | frac x y, b => by cases b <;> simp [beq]
  | str x, b => by cases b <;> simp [beq]
  | arr x, b => by cases b <;> simp [beq, beqList_iff x]
  | obj x, b => by cases b <;> simp [beq, beqObj_iff x]
theorem beqList_iff : ∀ a b : List Json, beqList a b = true ↔ a = b
  | [], b => by cases b <;> simp [beqList]
  | a :: as, b => by cases b <;> simp [beqList, beq_iff a, beqList_iff as]
theorem beqObj_iff : ∀ a b : List (Str × Json), beqObj a b = true ↔ a = b
  | [], b => by cases b <;> simp [beqObj]
  | (k, a) :: as, b => by
    cases b with
    | nil => simp [beqObj]
    | cons x xs => cases x; simp [beqObj, beq_iff a, beqObj_iff as, and_assoc]
end

instance : DecidableEq Json := fun a b => decidable_of_iff (beq a b = true) (beq_iff a b)

/-- The members of an object with a given name. -/
def lookupAll (name : Str) : List (Str × Json) → List Json
  | [] => []
  | (k, v) :: l => if k = name then v :: lookupAll name l else lookupAll name l

/-- The value of a field, for `#[derive(Deserialize)]`: `none` when the field is given twice (an error), otherwise
the value, if any. -/
def field (l : List (Str × Json)) (name : Str) : Option (Option Json) :=
  match lookupAll name l with
  | [] => some none
  | [v] => some (some v)
  | _ => none

/-- The fields of a structure (`#[derive(Deserialize)]`): from an object, by name, unknown members being ignored; from
an array of exactly as many elements, by position. -/
def fields (names : List Str) : Json → Option (List (Option Json))
  | obj l => names.mapM (field l)
  | arr l => if l.length = names.length then some (l.map some) else none
  | _ => none

/-- A required field of type `String`. -/
def asStr : Option Json → Option Str
  | some (str s) => some s
  | _ => none

/-- A required field of type `bool`. -/
def asBool : Option Json → Option Bool
  | some (bool b) => some b
  | _ => none

/-- The range of `i32`. -/
def isI32 (n : Int) : Bool := decide (-2147483648 ≤ n ∧ n ≤ 2147483647)

/-- A required field of type `i32`. -/
def asI32 : Option Json → Option Int
  | some (num n) => if isI32 n then some n else none
  | _ => none

/-- A field of type `Option<Value>`: absent or `null` is `None`. -/
def asValue : Option Json → Option Json
  | some null => none
  | x => x

/-! ## Text -/

/-- The digits of `\u00XX`. -/
def hexDigit (n : Nat) : Char := if n < 10 then Char.ofNat (48 + n) else Char.ofNat (87 + n)

/-- How a character is written in a string: quotes, backslashes and control characters are escaped. -/
def escapeChar (c : Char) : Str :=
  if c = '"' then ['\\', '"']
  else if c = '\\' then ['\\', '\\']
  else if c.toNat = 8 then ['\\', 'b']
  else if c.toNat = 9 then ['\\', 't']
  else if c.toNat = 10 then ['\\', 'n']
  else if c.toNat = 12 then ['\\', 'f']
  else if c.toNat = 13 then ['\\', 'r']
  else if c.toNat < 32 then ['\\', 'u', '0', '0', hexDigit (c.toNat / 16), hexDigit (c.toNat % 16)]
  else [c]

/-- A string. -/
def writeStr (s : Str) : Str := ['"'] ++ s.flatMap escapeChar ++ ['"']

/-- An integer. -/
def writeInt : Int → Str
  | .ofNat n => natStr n
  | .negSucc n => '-' :: natStr (n + 1)

mutual
/-- `serde_json::to_string` of a value (fractions are written in another way by the crate). -/
def write : Json → Str
  | null => str!"null"
  | bool true => str!"true"
  | bool false => str!"false"
  | num n => writeInt n
  | frac m e => writeInt m ++ ['e'] ++ writeInt e
  | str s => writeStr s
  | arr l => ['['] ++ writeList l ++ [']']
  | obj l => ['{'] ++ writeObj l ++ ['}']
/-- The elements of an array. -/
def writeList : List Json → Str
  | [] => []
  | [a] => write a
  | a :: l => write a ++ [','] ++ writeList l
/-- The members of an object. -/
def writeObj : List (Str × Json) → Str
  | [] => []
  | [(k, a)] => writeStr k ++ [':'] ++ write a
  | (k, a) :: l => writeStr k ++ [':'] ++ write a ++ [','] ++ writeObj l
end

end Json
end Ced

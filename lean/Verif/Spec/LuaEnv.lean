import Verif.Model.LuaEnv

/-! # The name of the session, as the scripts know it -/

namespace Ced.Spec

/-- A name without a double quote, a backslash or an end of line. -/
def UnquotedName (session : Str) : Prop := '"' ∉ session ∧ '\\' ∉ session ∧ '\n' ∉ session ∧ '\r' ∉ session

/-- The hexadecimal digits and their values. -/
def hexDigits : List (Char × Nat) :=
  [('0', 0), ('1', 1), ('2', 2), ('3', 3), ('4', 4), ('5', 5), ('6', 6), ('7', 7), ('8', 8), ('9', 9), ('a', 10), ('b', 11),
   ('c', 12), ('d', 13), ('e', 14), ('f', 15), ('A', 10), ('B', 11), ('C', 12), ('D', 13), ('E', 14), ('F', 15)]

/-- The decimal digits and their values. -/
def decDigits : List (Char × Nat) := hexDigits.take 10

/-- The escape sequences of one letter. -/
def escapes : List (Char × UInt8) :=
  [('a', 7), ('b', 8), ('t', 9), ('n', 10), ('v', 11), ('f', 12), ('r', 13), ('"', 34), ('\'', 39), ('\\', 92)]

/-- White space of Lua: space, tab, line feed, vertical tab, form feed, carriage return. -/
def luaSpaces : List Char := [' ', '\t', '\n', '\x0b', '\x0c', '\r']

/-- The number that these digits write in this base. -/
def numeral (base : Nat) (ds : List (Char × Nat)) : Nat := ds.foldl (fun v d => v * base + d.2) 0

/-- The bytes of `\u{…}`: the UTF-8 of the character; a surrogate is encoded the same way. -/
def utf8Of (v : Nat) : Bytes :=
  if 0xD800 ≤ v ∧ v < 0xE000 then [0xED, UInt8.ofNat (0x80 + v / 64 % 64), UInt8.ofNat (0x80 + v % 64)]
  else Str.encode [Char.ofNat v]

/-- The body of a literal between double quotes of Lua 5.3, and its value (Lua 5.3 manual, 3.1). -/
inductive LuaBody : Str → Bytes → Prop
  | nil : LuaBody [] []
  | char {c : Char} {s : Str} {v : Bytes} (hc : c ∉ ['"', '\\', '\n', '\r']) (h : LuaBody s v) :
      LuaBody (c :: s) (Str.encode [c] ++ v)
  | letter {c : Char} {b : UInt8} {s : Str} {v : Bytes} (hc : (c, b) ∈ escapes) (h : LuaBody s v) :
      LuaBody ('\\' :: c :: s) (b :: v)
  | hex {a b : Char × Nat} {s : Str} {v : Bytes} (ha : a ∈ hexDigits) (hb : b ∈ hexDigits) (h : LuaBody s v) :
      LuaBody ('\\' :: 'x' :: a.1 :: b.1 :: s) (UInt8.ofNat (numeral 16 [a, b]) :: v)
  /-- at most three digits, as many as there are -/
  | dec {ds : List (Char × Nat)} {s : Str} {v : Bytes} (hd : ∀ d ∈ ds, d ∈ decDigits) (h1 : ds ≠ []) (h3 : ds.length ≤ 3)
      (hm : ds.length = 3 ∨ ∀ c, s.head? = some c → c ∉ decDigits.map Prod.fst) (hv : numeral 10 ds ≤ 255)
      (h : LuaBody s v) : LuaBody ('\\' :: ds.map Prod.fst ++ s) (UInt8.ofNat (numeral 10 ds) :: v)
  /-- `\z` skips all the white space that follows -/
  | skip {ws s : Str} {v : Bytes} (hw : ∀ c ∈ ws, c ∈ luaSpaces) (hm : ∀ c, s.head? = some c → c ∉ luaSpaces)
      (h : LuaBody s v) : LuaBody ('\\' :: 'z' :: ws ++ s) v
  | uni {ds : List (Char × Nat)} {s : Str} {v : Bytes} (hd : ∀ d ∈ ds, d ∈ hexDigits) (h1 : ds ≠ [])
      (hv : numeral 16 ds ≤ 0x10FFFF) (h : LuaBody s v) :
      LuaBody ('\\' :: 'u' :: '{' :: ds.map Prod.fst ++ '}' :: s) (utf8Of (numeral 16 ds) ++ v)
  /-- an escaped end of line, of one character or of two different ones, is a line feed -/
  | line {c : Char} {s : Str} {v : Bytes} (hc : c = '\n' ∨ c = '\r')
      (hm : ∀ d, s.head? = some d → d = '\n' ∨ d = '\r' → d = c) (h : LuaBody s v) : LuaBody ('\\' :: c :: s) (10 :: v)
  | line2 {c d : Char} {s : Str} {v : Bytes} (hc : c = '\n' ∧ d = '\r' ∨ c = '\r' ∧ d = '\n') (h : LuaBody s v) :
      LuaBody ('\\' :: c :: d :: s) (10 :: v)

/-- The editor, in a session of this name: its scripts are run as `exec_lua` does. -/
def namedEnv (x : Foreign) (eng : LuaEngine) (session : Str) (env : EditorEnv LuaState) : EditorEnv LuaState :=
  { env with lua := Scripts.luaIn x eng session }

end Ced.Spec

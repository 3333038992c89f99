import Verif.Model.Scripts

/-!
# Model of the global `env` of the scripts: `core/src/editor/mod.rs` 154-171

Before each script of a client, `exec_lua` runs a chunk of Lua that it makes from the name of the session and the number
of the client, between double quotes and without escaping anything.  This file models how Lua 5.3 (`rlua` 0.17) reads that
chunk (`llex.c`), and what comes of the scripts.
-/

namespace Ced

/-- Where the reader of a literal between double quotes is: in the text; after a backslash; after `\x` and at most one
digit; after a backslash and some digits (their value, how many besides the first); after `\z`; after `\u`; after `\u{`;
after some digits there; after an escaped end of line. -/
inductive LuaLex where
  | text
  | escape
  | hex (first : Option Nat)
  | dec (value more : Nat)
  | skip
  | brace
  | uniStart
  | uni (value : Nat)
  | eol (c : Char)
deriving DecidableEq, Repr

/-- What one more character does: it goes on with some more bytes in the value; it ends the literal; it is an error. -/
inductive LuaStep where
  | go (state : LuaLex) (out : Bytes)
  | close (out : Bytes)
  | fail
deriving DecidableEq, Repr

/-- Bytes that come before. -/
def LuaStep.after (b : Bytes) : LuaStep → LuaStep
  | .go st out => .go st (b ++ out)
  | .close out => .close (b ++ out)
  | .fail => .fail

namespace LuaLex

/-- Lua 5.3, llex.c `read_string`: a character of the text. -/
def textStep (c : Char) : LuaStep :=
  if c = '"' then .close []
  else if c = '\\' then .go .escape []
  else if c = '\n' ∨ c = '\r' then .fail
  else .go .text (Str.encode [c])

/-- `lisxdigit`, `luaO_hexavalue` -/
def hexValue (c : Char) : Option Nat :=
  if '0' ≤ c ∧ c ≤ '9' then some (c.toNat - 48)
  else if 'a' ≤ c ∧ c ≤ 'f' then some (c.toNat - 87)
  else if 'A' ≤ c ∧ c ≤ 'F' then some (c.toNat - 55)
  else none

/-- `lisdigit` -/
def decValue (c : Char) : Option Nat := if '0' ≤ c ∧ c ≤ '9' then some (c.toNat - 48) else none

/-- `lisspace` -/
def isSpace (c : Char) : Bool := c.toNat = 32 || (9 ≤ c.toNat && c.toNat ≤ 13)

/-- lobject.c `luaO_utf8esc`: at most four bytes for the values that the reader lets through. -/
def utf8Esc (v : Nat) : Bytes :=
  if v < 0x80 then [UInt8.ofNat v]
  else if v < 0x800 then [UInt8.ofNat (0xC0 + v / 64), UInt8.ofNat (0x80 + v % 64)]
  else if v < 0x10000 then [UInt8.ofNat (0xE0 + v / 4096), UInt8.ofNat (0x80 + v / 64 % 64), UInt8.ofNat (0x80 + v % 64)]
  else [UInt8.ofNat (0xF0 + v / 262144), UInt8.ofNat (0x80 + v / 4096 % 64), UInt8.ofNat (0x80 + v / 64 % 64),
    UInt8.ofNat (0x80 + v % 64)]

/-- Lua 5.3, llex.c `read_string`: the letters that stand for a control character. -/
def letter (c : Char) : Option UInt8 :=
  [('a', 7), ('b', 8), ('f', 12), ('n', 10), ('r', 13), ('t', 9), ('v', 11), ('\\', 92), ('"', 34), ('\'', 39)].lookup c

/-- Lua 5.3, llex.c `read_string`: after a backslash. -/
def escapeStep (c : Char) : LuaStep :=
  match letter c with
  | some b => .go .text [b]
  | none =>
    if c = 'x' then .go (.hex none) []
    else if c = 'u' then .go .brace []
    else if c = 'z' then .go .skip []
    else if c = '\n' ∨ c = '\r' then .go (.eol c) [10]
    else match decValue c with
      | some d => .go (.dec d 0) []
      | none => .fail

/-- Lua 5.3, llex.c: `read_string`, `readhexaesc`, `readutf8esc`, `readdecesc`, `inclinenumber`. -/
def step : LuaLex → Char → LuaStep
  | .text, c => textStep c
  | .escape, c => escapeStep c
  | .hex none, c =>
    match hexValue c with
    | some d => .go (.hex (some d)) []
    | none => .fail
  | .hex (some v), c =>
    match hexValue c with
    | some d => .go .text [UInt8.ofNat (v * 16 + d)]
    | none => .fail
  | .dec v n, c =>
    match (if n < 2 then decValue c else none) with
    | some d => .go (.dec (v * 10 + d) (n + 1)) []
    | none => if v ≤ 255 then (textStep c).after [UInt8.ofNat v] else .fail
  | .skip, c => if isSpace c then .go .skip [] else textStep c
  | .brace, c => if c = '{' then .go .uniStart [] else .fail
  | .uniStart, c =>
    match hexValue c with
    | some d => .go (.uni d) []
    | none => .fail
  | .uni v, c =>
    match hexValue c with
    | some d => if v * 16 + d ≤ 0x10FFFF then .go (.uni (v * 16 + d)) [] else .fail
    | none => if c = '}' then .go .text (utf8Esc v) else .fail
  | .eol e, c => if (c = '\n' ∨ c = '\r') ∧ c ≠ e then .go .text [] else textStep c

/-- Lua 5.3, llex.c `read_string`: the value of the literal and what follows its closing quote; `none` is a syntax
error. -/
def read : LuaLex → Str → Option (Bytes × Str)
  | _, [] => none
  | st, c :: cs =>
    match step st c with
    | .fail => none
    | .close out => some (out, cs)
    | .go st' out => (read st' cs).map fun r => (out ++ r.1, r.2)

end LuaLex

/-- mod.rs:160-169: the chunk, before and between its two literals and after them. -/
def envHead : Str := str!"\n                    env = {\n                        session = \""

/-- mod.rs:160-169 -/
def envMiddle : Str := str!",\n                        client = \""

/-- mod.rs:160-169 -/
def envTail : Str := str!",\n                    }\n                    "

/-- mod.rs:160-169: the chunk that is made for a client. -/
def envChunk (session : Str) (client : Nat) : Str :=
  envHead ++ session ++ '"' :: envMiddle ++ natStr client ++ '"' :: envTail

/-- Lua 5.3, llex.c `llex`: white space, then this token. -/
def luaExpect (tok t : Str) : Option Str :=
  let t := t.dropWhile LuaLex.isSpace
  if t.take tok.length = tok then some (t.drop tok.length) else none

/-- The tokens of `toks`, one after the other. -/
def luaExpects : List Str → Str → Option Str
  | [], t => some t
  | tok :: toks, t => (luaExpect tok t).bind (luaExpects toks)

/-- What a chunk does: it sets `env` to a table with the field `session` of these bytes and the field `client` of these
bytes; it is no chunk of Lua; it is of another form. -/
inductive EnvResult where
  | value (session client : Bytes)
  | bad
  | other
deriving DecidableEq, Repr

/-- Lua 5.3, lparser.c: the assignment of a table of two fields to a global variable.  Of the chunks of Lua, only those of
the form `env = { session = "…", client = "…", }` are read; another chunk is not, unless a literal in its first part is
unfinished, which is an error whatever the rest is. -/
def readEnv (t : Str) : EnvResult :=
  match luaExpects [str!"env", str!"=", str!"{", str!"session", str!"=", ['"']] t with
  | none => .other
  | some t =>
    match LuaLex.read .text t with
    | none => .bad
    | some (v, t) =>
      match luaExpects [str!",", str!"client", str!"=", ['"']] t with
      | none => .other
      | some t =>
        match LuaLex.read .text t with
        | none => .bad
        | some (c, t) =>
          match luaExpects [str!",", str!"}"] t with
          | none => .other
          | some t => if t.all LuaLex.isSpace then .value v c else .other

/-- mod.rs:160-170: `context.load(&env_source).exec()` -/
def envResult (session : Str) (client : Nat) : EnvResult := readEnv (envChunk session client)

/-- The bytes of a Lua string as a `String` (`rlua`'s conversion, which refuses what is not UTF-8). -/
def luaText (v : Bytes) : Option Str := (ByteArray.utf8Decode? v.toByteArray).map Array.toList

/-- What is not modelled: the message of a syntax error; and what happens with a chunk that is not the intended one, or
with a name of session that is not UTF-8 there. -/
structure Foreign where
  syntaxError : Str
  other : Nat → Script LuaState → Script LuaState

namespace Scripts

/-- mod.rs:154-171 `exec_lua`: the chunk that sets `env`, then the script.  The scripts of the model are told the number
of the client, which they read in `env.client`. -/
def withEnv (x : Foreign) (session : Str) (client : Nat) (script : Script LuaState) : Script LuaState := fun l w =>
  match envResult session client with
  | .bad => .ok (l, w, some x.syntaxError)
  | .other => x.other client script l w
  | .value v c =>
    match luaText v with
    | some s => if c = Str.encode (natStr client) then script { l with session := s } w else x.other client script l w
    | none => x.other client script l w

/-- The scripts of ced in a session of this name. -/
def luaIn (x : Foreign) (eng : LuaEngine) (session : Str) : Lua LuaState where
  addClient client := withEnv x session client ((lua eng).addClient client)
  removeClient client := withEnv x session client ((lua eng).removeClient client)
  key client k := withEnv x session client ((lua eng).key client k)
  exec client source := withEnv x session client ((lua eng).exec client source)

end Scripts
end Ced

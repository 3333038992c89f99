import Verif.Model.Buffer
import Verif.Model.View

/-! # Character strings: literals and encoding (nothing here models a function of ced) -/

namespace Ced

open Lean in
/-- `str!"abc"` is the list of characters `['a', 'b', 'c']`. -/
macro:max "str!" s:str : term => do
  let cs := s.getString.toList.toArray
  let ts := cs.map fun c => (Syntax.mkCharLit c : TSyntax `char)
  `(([$ts,*] : List Char))

/-- The bytes of a `String`: UTF-8. -/
def Str.encode (s : Str) : Bytes := s.flatMap String.utf8EncodeChar

/-- `{}` of a number. -/
def natStr (n : Nat) : Str := Focus.decimal n

end Ced

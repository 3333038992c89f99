import Verif.Spec.Text

/-! # Specification of well-formed texts: sequences of characters encoded in UTF-8 -/

namespace Ced.Spec

/-- The UTF-8 encoding of a sequence of characters (`String.utf8EncodeChar` is Lean's own encoder). -/
def encode (cs : List Char) : Bytes := cs.flatMap String.utf8EncodeChar

/-- `s` is the encoding of some sequence of characters. -/
def IsText (s : Bytes) : Prop := ∃ cs, s = encode cs

/-- Position `k` of `s` is between two characters. -/
def IsBoundary (s : Bytes) (k : Nat) : Prop := IsText (s.take k) ∧ IsText (s.drop k)

/-- The characters with Unicode's property White_Space. -/
def whiteSpace : List Char :=
  ['\x09', '\x0a', '\x0b', '\x0c', '\x0d', ' ', '\u0085', '\u00a0', '\u1680', '\u2000', '\u2001', '\u2002', '\u2003',
    '\u2004', '\u2005', '\u2006', '\u2007', '\u2008', '\u2009', '\u200a', '\u2028', '\u2029', '\u202f', '\u205f', '\u3000']

/-- The character is white space. -/
def white (c : Char) : Bool := whiteSpace.contains c

end Ced.Spec

import Verif.Basic

/-!
# Specification of texts

Written without reference to the model: a text is a byte string.
-/

namespace Ced.Spec

/-- `x` put into `s` at position `o` (at the end if `o` is past the end). -/
def splice (s : Bytes) (o : Nat) (x : Bytes) : Bytes := s.take o ++ x ++ s.drop o

/-- `s` without the `n` bytes from position `a` on (fewer if `s` ends before). -/
def cut (s : Bytes) (a n : Nat) : Bytes := s.take a ++ s.drop (a + n)

/-- The bytes of `s` at positions `a, …, b-1`. -/
def slice (s : Bytes) (a b : Nat) : Bytes := (s.take b).drop a

/-- The positions of the newline bytes of `s`, in increasing order. -/
def newlinePositions (s : Bytes) : List Nat :=
  (List.range s.length).filter fun i => s[i]? = some NL

/-- The lines of `s`: a newline ends a line, the last line need not be terminated. -/
def lines : Bytes → List Bytes
  | [] => []
  | b :: bs =>
    if b = NL then [] :: lines bs
    else match lines bs with
      | [] => [[b]]
      | l :: ls => (b :: l) :: ls

/-- The lines of a text: a carriage return right before a newline belongs to the line break; one at
the end of an unterminated last line does not. -/
def cleanLines (s : Bytes) : List Bytes :=
  (lines s).mapIdx fun i l =>
    if (i + 1 < (lines s).length ∨ s.getLast? = some NL) ∧ l.getLast? = some 13 then l.dropLast else l

end Ced.Spec

import Verif.Model.Coords
import Verif.Spec.Reach

/-!
# Specification of lines, columns and offsets

Written with decompositions of the text, without the model's functions.
-/

namespace Ced.Spec

/-- `s` is `pre`, then its line number `n` (from 1) without its newline, then `suf`. -/
structure LineAt (s : Bytes) (n : Nat) (pre line suf : Bytes) : Prop where
  split : s = pre ++ line ++ suf
  number : n = pre.count NL + 1
  starts : pre = [] ∨ pre.getLast? = some NL
  noNewline : NL ∉ line
  stops : suf = [] ∨ suf.head? = some NL
  exist : line ++ suf ≠ []

/-- Offset `o` of `s` is at line `n` and column `c` (from 1), one column per byte; the newline ending a line has
the column after the last byte of the line, and so has the end of a last line that has no newline. -/
def At (s : Bytes) (o n c : Nat) : Prop :=
  ∃ pre line suf, LineAt s n pre line suf ∧ 1 ≤ c ∧ c ≤ line.length + 1 ∧ o = pre.length + (c - 1)

/-- The same with one column per grapheme cluster. -/
def ClusterAt (seg : Segmentation) (s : Bytes) (o n c : Nat) : Prop :=
  ∃ pre line suf, LineAt s n pre line suf ∧ 1 ≤ c ∧ c ≤ (seg line).length + 1 ∧
    o = pre.length + ((seg line).take (c - 1)).flatten.length

/-- What is assumed of the segmentation of the external crate: the clusters, put together, give back the bytes,
none is empty, and in ASCII text without newlines (or in a lone newline) every byte is a cluster. -/
structure IsSegmentation (seg : Segmentation) : Prop where
  flatten : ∀ l, (seg l).flatten = l
  nonempty : ∀ l g, g ∈ seg l → g ≠ []
  ascii : ∀ l, Ascii l → (NL ∉ l ∨ l = [NL]) → seg l = l.map fun b => [b]

/-- The text ends with a newline (so it is not empty). -/
def EndsWithNewline (s : Bytes) : Prop := s.getLast? = some NL

end Ced.Spec

namespace Ced.Spec

/-- Offset `o` is on line `n`, at the remembered column `tc`, or at the end of the line if it is shorter. -/
def Lands (s : Bytes) (n tc o : Nat) : Prop :=
  ∃ pre line suf, LineAt s n pre line suf ∧ 1 ≤ tc ∧ o = pre.length + (min tc (line.length + 1) - 1)

/-- The remembered column `tc` agrees with the position `o` of the cursor. -/
def Remembered (s : Bytes) (o tc : Nat) : Prop := ∃ n, Lands s n tc o

/-- Number of lines. -/
def lineCount (s : Bytes) : Nat := (lines s).length

end Ced.Spec

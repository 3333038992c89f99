import Verif.Model.PieceTable
import Verif.Model.Utf8

/-! # Model of the string views of a piece table (piece_table/mod.rs:287-315, 344-348) -/

namespace Ced

/-- Split at newlines; the accumulator holds the current line. A last empty line is dropped. -/
def splitNewlines (acc : Bytes) : Bytes → List Bytes
  | [] => if acc = [] then [] else [acc]
  | b :: bs => if b = NL then acc :: splitNewlines [] bs else splitNewlines (acc ++ [b]) bs

/-- Remove a carriage return at the end of a line. -/
def stripCR (l : Bytes) : Bytes := if l.getLast? = some 13 then l.dropLast else l

/-- Rust's `str::lines`; it strips a carriage return only before a newline. -/
def strLines (s : Bytes) : List Bytes :=
  let ls := splitNewlines [] s
  if s.getLast? = some NL then ls.map stripCR
  else ls.dropLast.map stripCR ++ ls.getLast?.toList

namespace PieceTable

/-- piece_table/mod.rs:287-301 `join("")` and 303-305 `text`: the pieces are decoded one by one. -/
def text (t : PieceTable) : R Bytes := do
  let parts ← t.pieces.mapM fun p => do
    let bs ← sliceR (t.buffer p) p.start p.stop
    return utf8Lossy bs
  return parts.flatten

/-- piece_table/mod.rs:307-311 `text_range`, for the range `a..b`. -/
def textRange (t : PieceTable) (a b : Nat) : R (Option Bytes) := do
  let bs ← t.range a b
  return bs.map utf8Lossy

/-- piece_table/mod.rs:313-315 `lines`. -/
def lines (t : PieceTable) : R (List Bytes) := do
  let s ← t.text
  return strLines s

/-- piece_table/mod.rs:344-348 `line_text`. -/
def lineText (t : PieceTable) (n : Nat) : R (Option Bytes) := do
  let bs ← t.lineBytes n
  return bs.map utf8Lossy

end PieceTable
end Ced

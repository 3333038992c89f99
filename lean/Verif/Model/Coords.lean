import Verif.Model.Text

/-!
# Model of the coordinates of `piece_table/mod.rs`, and of `piece_table/navigator.rs`

`seg` is the segmentation of a byte string into grapheme clusters (external crate `bstr`); it is a parameter of
every function that uses it.
-/

namespace Ced

/-- The segmentation into grapheme clusters (`bstr::ByteSlice::graphemes`). -/
abbrev Segmentation := Bytes → List Bytes

/-- piece_table/mod.rs:153-157 `struct Coords`. -/
structure Coords where
  l : Nat
  c : Nat
deriving DecidableEq, Repr

/-- The starts of the clusters, `grapheme_indices().map(|(i, _, _)| i)`. -/
def clusterStarts (off : Nat) : List Bytes → List Nat
  | [] => []
  | g :: gs => off :: clusterStarts (off + g.length) gs

namespace PieceTable

/-- piece_table/mod.rs:350-384 `offset_to_coord`. -/
def offsetToCoord (seg : Segmentation) (t : PieceTable) (offset : Nat) : R (Option Coords) :=
  if offset = 0 then .ok (some ⟨1, 1⟩)
  else do
    let m ← t.maxOffset
    if m < offset then return none
    else
      match t.newlines.findIdx? (· == offset) with
      | some idx =>
        let len ← t.lineLength (idx + 1)
        return some ⟨idx + 1, len + 1⟩
      | none =>
        -- `newlines.range(..offset)`
        let preceding := t.newlines.filter (· < offset)
        let lineno := preceding.length + 1
        match preceding.getLast? with
        | some nli =>
          let lb ← t.lineBytes lineno
          let line ← unwrapR lb
          let d ← subChecked offset nli
          return some ⟨lineno, ((clusterStarts 0 (seg line)).filter (· < d)).length⟩
        | none => return some ⟨lineno, offset + 1⟩

/-- piece_table/mod.rs:386-414 `coord_to_offset`. -/
def coordToOffset (seg : Segmentation) (t : PieceTable) (coords : Coords) : R (Option Nat) :=
  if coords.l = 0 then .ok (some 0)
  else do
    let count ← t.lineCount
    if count < coords.l then return none
    else
      let lineOffset := if 1 < coords.l then (t.newlines[coords.l - 2]?.map (· + 1)).getD 0 else 0
      let lb ← t.lineBytes coords.l
      match lb with
      | none => .error .explicit
      | some lbs =>
        if coords.c = (seg lbs).length + 1 then return some (lineOffset + lbs.length)
        else
          let k ← subChecked coords.c 1
          return (clusterStarts 0 (seg lbs))[k]?.map (lineOffset + ·)

/-- piece_table/mod.rs:424-426 `max_coord`. -/
def maxCoord (seg : Segmentation) (t : PieceTable) : R Coords := do
  let m ← t.maxOffset
  let c ← t.offsetToCoord seg m
  unwrapR c

/-- piece_table/mod.rs:428-437 `char_at_offset`.  Simplified: the bytes of the cluster, where `bstr` gives U+FFFD for bytes that
are not UTF-8; the program only compares them with a newline. -/
def charAtOffset (seg : Segmentation) (t : PieceTable) (offset : Nat) : R (Option Bytes) := do
  let stop := ((t.newlines.filter (offset ≤ ·)).head?).getD t.len
  let d ← subChecked stop offset
  let bs ← t.range offset (offset + max d 1)
  return bs.bind fun l => (seg l).head?

/-- piece_table/mod.rs:439-442 `char_at`. -/
def charAt (seg : Segmentation) (t : PieceTable) (coords : Coords) : R (Option Bytes) := do
  let o ← t.coordToOffset seg coords
  match o with
  | none => return none
  | some offset =>
    let c ← t.charAtOffset seg offset
    let c ← unwrapR c
    return some c

/-- piece_table/mod.rs:471-486 `lines_range`. -/
def linesRange (seg : Segmentation) (t : PieceTable) (a b : Coords) : R (List Bytes) := do
  let o1 ← t.coordToOffset seg a
  match o1 with
  | none => return []
  | some first =>
    let o2 ← t.coordToOffset seg b
    match o2 with
    | none => return []
    | some last =>
      let length ← subChecked last first
      let s ← t.textRange first (first + length)
      return strLines (s.getD [])

end PieceTable

/-- position.rs:3-8 `struct Position`. -/
structure Position where
  offset : Nat
  coords : Coords
  grapheme : Option Bytes
deriving DecidableEq, Repr

/-- navigator.rs:9-13 `struct Navigator` (without the table it borrows). -/
structure Navigator where
  cursor : Coords
  targetCol : Nat
deriving DecidableEq, Repr

namespace Navigator

/-- navigator.rs:7 `BEGIN`. -/
def BEGIN : Coords := ⟨1, 1⟩

/-- navigator.rs:20-30 `from_position`. -/
def fromPosition (seg : Segmentation) (t : PieceTable) (coords : Coords) : R (Option Navigator) := do
  let o ← t.coordToOffset seg coords
  return if o.isSome then some ⟨coords, coords.c⟩ else none

/-- navigator.rs:16-18 `new`. -/
def new (seg : Segmentation) (t : PieceTable) : R Navigator := do
  let nv ← fromPosition seg t BEGIN
  unwrapR nv

/-- piece_table/mod.rs:632-637 `navigate`. -/
def navigate (seg : Segmentation) (t : PieceTable) (c : Option Coords) : R (Option Navigator) :=
  match c with
  | some c => fromPosition seg t c
  | none => do
    let nv ← new seg t
    return some nv

/-- navigator.rs:32-34 `is_at_end`. -/
def isAtEnd (seg : Segmentation) (t : PieceTable) (nv : Navigator) : R Bool := do
  let m ← t.maxCoord seg
  return nv.cursor = m

/-- navigator.rs:36-56 `pos`. -/
def pos (seg : Segmentation) (t : PieceTable) (nv : Navigator) : R Position := do
  let lb ← t.lineBytes nv.cursor.l
  match lb with
  | none => .error .explicit
  | some lbs =>
    let colCount := (seg lbs).length + 1
    let cursor : Coords := { nv.cursor with c := min colCount nv.targetCol }
    let o ← t.coordToOffset seg cursor
    match o with
    | none => .error .explicit
    | some offset =>
      let g ← t.charAt seg cursor
      return ⟨offset, cursor, g⟩

/-- navigator.rs:58-75 `next`. -/
def next (seg : Segmentation) (t : PieceTable) (nv : Navigator) : R Navigator := do
  let m ← t.maxCoord seg
  if nv.cursor = m then return nv
  else
    let ch ← t.charAt seg nv.cursor
    if ch = some [NL] then return ⟨⟨nv.cursor.l + 1, 1⟩, 1⟩
    else
      let o ← t.coordToOffset seg nv.cursor
      let offset ← unwrapR o
      let c ← t.offsetToCoord seg (offset + 1)
      match c with
      | some coord => return ⟨coord, coord.c⟩
      | none => return nv

/-- navigator.rs:77-89 `previous`. -/
def previous (t : PieceTable) (nv : Navigator) : R Navigator :=
  if nv.cursor ≠ BEGIN then
    if nv.cursor.l ≠ 1 ∧ nv.cursor.c = 1 then do
      let l ← subChecked nv.cursor.l 1
      let len ← t.lineLength l
      return ⟨⟨l, len + 1⟩, len + 1⟩
    else do
      let c ← subChecked nv.cursor.c 1
      return ⟨⟨nv.cursor.l, c⟩, c⟩
  else .ok nv

/-- navigator.rs:91-96 `next_line`. -/
def nextLine (t : PieceTable) (nv : Navigator) : R Navigator := do
  let count ← t.lineCount
  return if nv.cursor.l < count then { nv with cursor := { nv.cursor with l := nv.cursor.l + 1 } } else nv

/-- navigator.rs:98-103 `previous_line`. -/
def previousLine (nv : Navigator) : Navigator :=
  if 1 < nv.cursor.l then { nv with cursor := { nv.cursor with l := nv.cursor.l - 1 } } else nv

/-- navigator.rs:105-109 `line_begin`. -/
def lineBegin (nv : Navigator) : Navigator := ⟨{ nv.cursor with c := 1 }, 1⟩

/-- navigator.rs:111-115 `line_end`. -/
def lineEnd (t : PieceTable) (nv : Navigator) : R Navigator := do
  let len ← t.lineLength nv.cursor.l
  return ⟨{ nv.cursor with c := len }, len⟩

/-- navigator.rs:117-121 `begin`. -/
def «begin» (_ : Navigator) : Navigator := ⟨BEGIN, BEGIN.c⟩

/-- navigator.rs:123-127 `end`. -/
def «end» (seg : Segmentation) (t : PieceTable) (_ : Navigator) : R Navigator := do
  let m ← t.maxCoord seg
  return ⟨m, m.c⟩

end Navigator

/-- selection.rs:1-16 `struct Selection`. -/
structure Selection where
  anchor : Nat
  cursor : Nat
  targetCol : Nat
deriving DecidableEq, Repr

namespace Selection

/-- selection.rs:8-22 `default`/`new`. -/
def new : Selection := ⟨0, 0, 1⟩

/-- selection.rs:24-30 `begin`. -/
def first (s : Selection) : Nat := if s.anchor ≤ s.cursor then s.anchor else s.cursor

/-- selection.rs:32-38 `end`. -/
def last (s : Selection) : Nat := if s.anchor < s.cursor then s.cursor else s.anchor

/-- selection.rs:40-53 `clamp_to` (the returned difference is not used by its callers). -/
def clampTo (s : Selection) (n : Nat) : Selection :=
  if n ≤ s.last then
    if s.anchor < s.cursor then { s with cursor := n } else { s with anchor := n }
  else s

end Selection

/-- core.rs:87-97 `enum CursorTarget`. -/
inductive CursorTarget where
  | left | right | up | down | «begin» | «end» | lineBegin | lineEnd
deriving DecidableEq, Repr

/-- core.rs:540-549: the motion of a navigator. -/
def Navigator.move (seg : Segmentation) (t : PieceTable) (nv : Navigator) : CursorTarget → R Navigator
  | .left => nv.previous t
  | .right => nv.next seg t
  | .up => .ok nv.previousLine
  | .down => nv.nextLine t
  | .lineBegin => .ok nv.lineBegin
  | .lineEnd => nv.lineEnd t
  | .begin => .ok nv.begin
  | .end => nv.end seg t

/-- core.rs:530-556: the motion of one selection of a buffer. -/
def Selection.move (seg : Segmentation) (t : PieceTable) (dir : CursorTarget) (extend : Bool) (s : Selection) :
    R Selection :=
  if t.len = 1 then .ok s
  else do
    let coord ← t.offsetToCoord seg s.cursor
    let nv ← Navigator.navigate seg t coord
    let nv ← unwrapR nv
    let nv ← Navigator.move seg t { nv with targetCol := s.targetCol } dir
    let p ← nv.pos seg t
    return ⟨if extend then s.anchor else p.offset, p.offset, nv.targetCol⟩

/-- buffer.rs:168-180 `selection_range`: the start and the end of the range. -/
def selectionRange (seg : Segmentation) (t : PieceTable) (s : Selection) : R (Nat × Nat) := do
  let m ← t.maxOffset
  if s.last = m then return (s.first, s.last + 1)
  else
    let coord ← t.offsetToCoord seg s.last
    let nv ← Navigator.navigate seg t coord
    let nv ← unwrapR nv
    let nv ← nv.next seg t
    let p ← nv.pos seg t
    return (s.first, p.offset)

end Ced

import Verif.Basic

/-!
# Model of `core/src/editor/piece_table/mod.rs`: the buffer content

The red-black tree set of the external crate `rbtset` is a list of pieces ordered by offset.
-/

namespace Ced

/-- piece_table/mod.rs:14-20 `struct Piece`. -/
structure Piece where
  offset : Nat
  start : Nat
  length : Nat
  original : Bool
deriving DecidableEq, Repr

namespace Piece

/-- piece_table/mod.rs:32-35 `Piece::end`. -/
def stop (p : Piece) : Nat := p.start + p.length

/-- piece_table/mod.rs:37-40 `Piece::contains`. -/
def contains (p : Piece) (offset : Nat) : Bool :=
  p.offset ≤ offset && offset < p.offset + p.length

/-- piece_table/mod.rs:42-62 `Piece::split`.  The subtractions `offset - self.offset` and
`self.length - p1.length` cannot underflow where it is called (the piece contains the offset), they
are plain `Nat` subtractions here. -/
def split (p : Piece) (offset length : Nat) : Option Piece × Piece :=
  if offset = p.offset then
    (none, { p with offset := offset + length })
  else
    let p1 := { p with length := offset - p.offset }
    let p2 := { p with offset := offset + length, start := p1.stop, length := p.length - p1.length }
    (some p1, p2)

/-- piece_table/mod.rs:64-85 `Piece::truncate`; subtractions guarded by `contains`. -/
def truncate (p : Piece) (offset length : Nat) : Option Piece × Option Piece :=
  let p1 :=
    if p.contains offset ∧ p.offset ≠ offset then
      some { p with length := offset - p.offset }
    else none
  let stop := offset + length
  let p2 :=
    if p.contains stop then
      some { p with
        offset := offset
        start := p.start + stop - p.offset
        length := p.length - (stop - p.offset) }
    else none
  (p1, p2)

/-- piece_table/mod.rs:87-110 `Piece::ranged`, for a range given by its start and end (range.rs:6-8: its length is
`end - start`, which panics if the range is reversed). -/
def ranged (p : Piece) (a b : Nat) : R Piece :=
  if p.contains a && p.contains b then do
    let len ← subChecked b a
    return { p with offset := a, start := p.start + a - p.offset, length := len }
  else if p.contains a then
    .ok { p with offset := a, start := p.start + a - p.offset, length := p.length - (a - p.offset) }
  else if p.contains b then
    .ok { p with length := b - p.offset }
  else .ok p

/-- piece_table/mod.rs:131-136 `Consecutive::consecutive`. -/
def consecutive (p q : Piece) : Bool :=
  p.offset + p.length == q.offset && p.original == q.original && p.stop == q.start

/-- piece_table/mod.rs:138-143 `Consecutive::merged`. -/
def merged (p q : Piece) : Piece := { p with length := p.length + q.length }

end Piece

/-- The ordered set of pieces (`rbtset::RBTreeSet<Piece>`), in increasing order of offset. -/
abbrev Pieces := List Piece

namespace Pieces

/-- `RBTreeSet::get_node(&Piece::offset(o))` with the equality of piece_table/mod.rs:125-129: the
piece whose range contains `o`.  (External crate: contract.) -/
def getNode (ps : Pieces) (o : Nat) : Option Piece := ps.find? (·.contains o)

/-- `RBTreeSet::insert`: insertion in the order of piece_table/mod.rs:113-117 (by offset).
(External crate: contract.) -/
def insert (p : Piece) : Pieces → Pieces
  | [] => [p]
  | q :: qs => if p.offset ≤ q.offset then p :: q :: qs else q :: insert p qs

/-- `if let Some(p) = … { self.pieces.insert(p) }` (piece_table/mod.rs:532-534, 574-579). -/
def insertOpt : Option Piece → Pieces → Pieces
  | some p, ps => insert p ps
  | none, ps => ps

/-- `RBTreeSet::remove_node`/`remove`: a node is identified by its offset, which is unique in the set.
(External crate: contract.) -/
def removeAt (off : Nat) (ps : Pieces) : Pieces := ps.filter (·.offset ≠ off)

/-- `RBTreeSet::values_from(node)`: the pieces from that node on. (External crate: contract.) -/
def valuesFrom (ps : Pieces) (off : Nat) : Pieces := ps.dropWhile (·.offset < off)

/-- `RBTreeSet::repack` with piece_table/mod.rs:131-144: merge runs of consecutive pieces.
(External crate: contract.) -/
def repack : Pieces → Pieces
  | [] => []
  | p :: ps =>
    match repack ps with
    | [] => [p]
    | q :: qs => if p.consecutive q then p.merged q :: qs else p :: q :: qs

/-- piece_table/mod.rs:508-514 `shift_offset_after` with a positive value: all the pieces after the
node, i.e. of larger offset, are shifted. -/
def shiftUp (off v : Nat) (ps : Pieces) : Pieces :=
  ps.map fun p => if off < p.offset then { p with offset := p.offset + v } else p

/-- piece_table/mod.rs:508-514 `shift_offset_after` with a negative value (the sum is computed in
`i64` and is never negative for the pieces concerned, see `Proofs/PieceTable`). -/
def shiftDown (off v : Nat) (ps : Pieces) : Pieces :=
  ps.map fun p => if off < p.offset then { p with offset := p.offset - v } else p

/-- The sum in piece_table/mod.rs:211-213 `len`. -/
def len (ps : Pieces) : Nat := ps.foldl (fun acc p => acc + p.length) 0

end Pieces

/-- `BTreeSet<usize>::insert` on a strictly increasing list. -/
def setInsert (n : Nat) : List Nat → List Nat
  | [] => [n]
  | m :: ms => if n < m then n :: m :: ms else if n = m then m :: ms else m :: setInsert n ms

/-- `BTreeSet<usize>::extend`. -/
def setExtend (s : List Nat) (ns : List Nat) : List Nat := ns.foldl (fun s n => setInsert n s) s

/-- `text.match_indices('\n').map(|(i, _)| i)`. -/
def matchNewlines (text : Bytes) : List Nat :=
  (List.range text.length).filter fun i => text[i]? == some NL

/-- piece_table/mod.rs:146-151 `enum Action`. -/
inductive Action where
  | bulk | delete | insert
deriving DecidableEq, Repr

/-- piece_table/mod.rs:168-176 `struct PieceTable`. `undos`/`redos` have their top at the head. -/
structure PieceTable where
  original : Bytes
  added : Bytes
  pieces : Pieces
  newlines : List Nat
  lastAction : Option Action
  undos : List Pieces
  redos : List Pieces
deriving DecidableEq, Repr

/-- What the external crate does with the handle of a removed node (piece_table/mod.rs:565, 582-584):
either it denotes the following remaining piece (`follows = true`, the behaviour the code relies on),
or it denotes nothing reachable.  When there is no following piece, `staleOffset` is the offset stored
in the stale node.  All theorems quantify over it. -/
structure StaleHandle where
  follows : Bool
  staleOffset : Nat
deriving DecidableEq, Repr

namespace PieceTable

/-- piece_table/mod.rs:179-197 `with_text`. -/
def withText (text : Bytes) : PieceTable where
  original := text
  added := []
  pieces := Pieces.insert { offset := 0, start := 0, length := text.length, original := true } []
  newlines := setExtend [] (matchNewlines text)
  lastAction := none
  undos := []
  redos := []

/-- piece_table/mod.rs:199-209 `new`. -/
def new : PieceTable where
  original := []
  added := []
  pieces := []
  newlines := []
  lastAction := none
  undos := []
  redos := []

/-- piece_table/mod.rs:211-213 `len`. -/
def len (t : PieceTable) : Nat := t.pieces.len

/-- piece_table/mod.rs:215-217 `is_empty`. -/
def isEmpty (t : PieceTable) : Bool := t.pieces.isEmpty

/-- piece_table/mod.rs:219-224 `commit`. -/
def commit (t : PieceTable) : PieceTable :=
  let ps := t.pieces.repack
  { t with pieces := ps, undos := ps :: t.undos, redos := [], lastAction := none }

/-- piece_table/mod.rs:226-234 `action`. -/
def action (t : PieceTable) (a : Action) : PieceTable :=
  if t.lastAction = some .bulk then t
  else if t.lastAction ≠ some a then { t.commit with lastAction := some a }
  else t

/-- piece_table/mod.rs:236-238 `start_bulk`. -/
def startBulk (t : PieceTable) : PieceTable := t.action .bulk

/-- piece_table/mod.rs:240-242 `end_bulk`. -/
def endBulk (t : PieceTable) : PieceTable := { t with lastAction := none }

/-- piece_table/mod.rs:244-253 `undo`. -/
def undo (t : PieceTable) : PieceTable × Bool :=
  match t.undos with
  | ps :: rest =>
    ({ t with undos := rest, redos := t.pieces :: t.redos, pieces := ps, lastAction := none }, true)
  | [] => (t, false)

/-- piece_table/mod.rs:255-264 `redo`. -/
def redo (t : PieceTable) : PieceTable × Bool :=
  match t.redos with
  | ps :: rest =>
    ({ t with redos := rest, undos := t.pieces :: t.undos, pieces := ps, lastAction := none }, true)
  | [] => (t, false)

/-- The buffer a piece refers to (piece_table/mod.rs:273-277). -/
def buffer (t : PieceTable) (p : Piece) : Bytes := if p.original then t.original else t.added

/-- piece_table/mod.rs:266-285 `range`, for the range `a..b`. -/
def range (t : PieceTable) (a b : Nat) : R (Option Bytes) :=
  match t.pieces.getNode a with
  | none => .ok none
  | some node => do
    let sel := (t.pieces.valuesFrom node.offset).takeWhile (·.offset < b)
    let parts ← sel.mapM fun p => do
      let rp ← p.ranged a b
      sliceR (t.buffer p) rp.start rp.stop
    return some parts.flatten

/-- piece_table/mod.rs:490-495: the offset just after the last piece. -/
def endOffset (ps : Pieces) : Nat :=
  match ps.getLast? with
  | some p => p.offset + p.length
  | none => 0

/-- piece_table/mod.rs:490-505: `append` after its call of `action`. -/
def appendCore (t : PieceTable) (text : Bytes) : PieceTable :=
  let offset := endOffset t.pieces
  let index := t.added.length
  { t with
    pieces := t.pieces.insert { offset := offset, start := index, length := text.length, original := false }
    newlines := setExtend t.newlines ((matchNewlines text).map (offset + ·))
    added := t.added ++ text }

/-- piece_table/mod.rs:488-506 `append`. -/
def append (t : PieceTable) (text : Bytes) : PieceTable := (t.action .insert).appendCore text

/-- piece_table/mod.rs:519-544: `insert` after its call of `action`, at a node containing the offset. -/
def insertAt (t : PieceTable) (node : Piece) (offset : Nat) (text : Bytes) : PieceTable :=
  let addedStart := t.added.length
  let new : Piece :=
    { offset := offset, start := addedStart, length := text.length, original := false }
  let sub := node.split new.offset new.length
  let ps := t.pieces.shiftUp node.offset new.length
  let ps := ps.removeAt node.offset
  let ps := Pieces.insertOpt sub.1 ps
  let ps := ps.insert new
  let ps := ps.insert sub.2
  let nls := setExtend [] (t.newlines.map fun i => if offset ≤ i then i + new.length else i)
  { t with
    added := t.added ++ text
    pieces := ps
    newlines := setExtend nls ((matchNewlines text).map (· + offset)) }

/-- piece_table/mod.rs:516-548 `insert`. -/
def insert (t0 : PieceTable) (offset : Nat) (text : Bytes) : PieceTable :=
  let t := t0.action .insert
  match t.pieces.getNode offset with
  | some node => t.insertAt node offset text
  | none => t.append text

/-- The new newline set of piece_table/mod.rs:585-597. -/
def deleteNewlines (nls : List Nat) (a n : Nat) : List Nat :=
  setExtend [] (nls.filterMap fun i =>
    if a ≤ i ∧ i < a + n then none
    else if a + n ≤ i then some (i - n)
    else some i)

/-- piece_table/mod.rs:553-597: `delete` after its call of `action`, for the range of start `a` and
length `n`. -/
def deleteCore (h : StaleHandle) (t : PieceTable) (a n : Nat) : R PieceTable :=
  if a = 0 ∧ n = t.len then
    .ok { t with pieces := [], newlines := [] }
  else
    match t.pieces.getNode a with
    | none => .ok t
    | some startNode =>
      let taken := (t.pieces.valuesFrom startNode.offset).takeWhile (·.offset < a + n)
      match taken.head?, taken.getLast? with
      | some first, some last =>
        let head := (first.truncate a n).1
        let tail := (last.truncate a n).2
        let ps := taken.foldl (fun ps p => Pieces.removeAt p.offset ps) t.pieces
        let ps := Pieces.insertOpt head ps
        let ps := Pieces.insertOpt tail ps
        let finish (ps : Pieces) : PieceTable :=
          { t with pieces := ps, newlines := deleteNewlines t.newlines a n }
        match tail.or head with
        | some ln => .ok (finish (Pieces.shiftDown ln.offset n ps))
        | none =>
          -- `start_node.apply(|n| n.offset -= range.len())` on a handle whose node was removed
          match ps.find? (fun p => startNode.offset < p.offset) with
          | some next =>
            if h.follows then
              -- `next` itself and then all the pieces after it are shifted
              .ok (finish (ps.map fun p =>
                if next.offset ≤ p.offset then { p with offset := p.offset - n } else p))
            else if n ≤ h.staleOffset then .ok (finish ps) else .error .overflow
          | none =>
            if n ≤ h.staleOffset then .ok (finish ps) else .error .overflow
      | _, _ => .error .index

/-- piece_table/mod.rs:550-598 `delete`, for the range of start `a` and length `n`. -/
def delete (h : StaleHandle) (t : PieceTable) (a n : Nat) : R PieceTable :=
  (t.action .delete).deleteCore h a n

/-- piece_table/mod.rs:600-605 `replace`. -/
def replace (h : StaleHandle) (t : PieceTable) (a n : Nat) (text : Bytes) : R PieceTable := do
  let t := t.startBulk
  let t ← t.delete h a n
  let t := t.insert a text
  return t.endBulk

/-- piece_table/mod.rs:416-422 `max_offset`. -/
def maxOffset (t : PieceTable) : R Nat :=
  if t.isEmpty then .ok 0 else subChecked t.len 1

/-- piece_table/mod.rs:317-323 `line_count`. -/
def lineCount (t : PieceTable) : R Nat := do
  let m ← t.maxOffset
  return if t.newlines.contains m then t.newlines.length else t.newlines.length + 1

/-- piece_table/mod.rs:325-342 `line_bytes`. -/
def lineBytes (t : PieceTable) (n : Nat) : R (Option Bytes) := do
  let count ← t.lineCount
  if n = 0 ∨ count < n then
    return none
  else if n = 1 then
    t.range 0 (t.newlines.head?.getD t.len)
  else
    let start ← unwrapR t.newlines[n - 2]?
    let stop ← match t.newlines[n - 1]? with
      | some v => subChecked v 1
      | none => .ok t.len
    let length ← subChecked stop start
    t.range (start + 1) (start + 1 + length)

/-- piece_table/mod.rs:444-458 `line_length`; `nls.sort_unstable()` does nothing on the iterator of
a `BTreeSet`. -/
def lineLength (t : PieceTable) (index : Nat) : R Nat :=
  let nls := t.newlines
  match nls with
  | [] => .ok t.len
  | nl0 :: _ =>
    if index = 1 then .ok nl0
    else do
      let i ← subChecked index 1
      if i < nls.length then
        let x ← indexR nls i
        let j ← subChecked index 2
        let y ← indexR nls j
        let d ← subChecked x y
        subChecked d 1
      else if i = nls.length then
        let j ← subChecked index 2
        let y ← indexR nls j
        let d ← subChecked t.len y
        subChecked d 1
      else return 0

/-- piece_table/mod.rs:460-469 `longest_line`. -/
def longestLine (t : PieceTable) : R (Nat × Nat) :=
  (List.range' 1 (t.newlines.length + 1)).foldlM (fun longest i => do
    let len ← t.lineLength i
    return if longest.2 < len then (i, len) else longest) (0, 0)

end PieceTable
end Ced

import Verif.Model.Buffer
import Verif.Model.Coords
import Verif.Model.Assoc

/-! # Model of `core/src/editor/view.rs` -/

namespace Ced

/-- The order of `String` (by code points, which is the order of the UTF-8 bytes). -/
def strLt : Str → Str → Bool
  | _, [] => false
  | [], _ :: _ => true
  | a :: as, b :: bs => if a.val < b.val then true else if a = b then strLt as bs else false

/-- view.rs:14-18 `enum Focus`. -/
inductive Focus where
  | range (start stop : Nat)
  | whole
deriving DecidableEq, Repr

namespace Focus

/-- view.rs:20-28 `start`. -/
def start : Focus → Nat
  | range a _ => a
  | whole => 0

/-- The decimal digits of a number (`{}` of a `usize`). -/
def decimal (n : Nat) : Str := Nat.toDigits 10 n

/-- view.rs:30-38 `Display`. -/
def display : Focus → Str
  | range a b => decimal a ++ ['.', '.'] ++ decimal b
  | whole => ['*']

/-- view.rs:46-60 `Ord::cmp(self, other) == Less`. -/
def isLess : Focus → Focus → Bool
  | whole, _ => false
  | range _ _, whole => true
  | range a b, range c d => if a ≠ c then a < c else b < d

end Focus

/-- view.rs:68-69 `struct LensGroup`; the lenses of a group all have the buffer of the group. -/
abbrev LensGroup := List Focus

namespace LensGroup

/-- A step of `sort`: put `f` in front of the first focus that is not less. -/
def insertSorted (f : Focus) : LensGroup → LensGroup
  | [] => [f]
  | g :: gs => if g.isLess f then g :: insertSorted f gs else f :: g :: gs

/-- `sort_by(cmp)`: the stable sort, written as an insertion sort (a stable sort has one possible result). -/
def sort : LensGroup → LensGroup
  | [] => []
  | f :: fs => insertSorted f (sort fs)

/-- view.rs:72-75 `add`: push and sort. -/
def add (g : LensGroup) (f : Focus) : LensGroup := sort (g ++ [f])

/-- view.rs:77-82 `focus`. -/
def focus (g : LensGroup) : R Focus := do
  let first ← unwrapR g.head?
  let last ← unwrapR g.getLast?
  match first, last with
  | .whole, _ => return .whole
  | _, .whole => return .whole
  | .range a _, .range _ d => return .range a d

end LensGroup

/-- view.rs:99-100 `struct View`: a `BTreeMap`, sorted by name. -/
abbrev View := List (Str × LensGroup)

/-- view.rs:93-97 `enum ViewItem`. -/
inductive ViewItem where
  | header (buffer : Str) (focus : Focus)
  | lens (buffer : Str) (focus : Focus)
deriving DecidableEq, Repr

namespace View

/-- view.rs:124-129 `add_lens`. -/
def addLens (v : View) (buffer : Str) (f : Focus) : View :=
  match v with
  | [] => [(buffer, LensGroup.add [] f)]
  | (b, g) :: rest =>
    if b = buffer then (b, g.add f) :: rest
    else if strLt buffer b then (buffer, LensGroup.add [] f) :: (b, g) :: rest
    else (b, g) :: addLens rest buffer f

/-- view.rs:103-110 `for_buffer`. -/
def forBuffer (buffer : Str) : View := addLens [] buffer .whole

/-- `[String]::join`. -/
def join (sep : Str) : List Str → Str
  | [] => []
  | [s] => s
  | s :: ss => s ++ sep ++ join sep ss

/-- view.rs:112-122 `key`. -/
def key (v : View) : Str :=
  join ['|'] (v.map fun bg => bg.1 ++ ['{'] ++ join [','] (bg.2.map Focus.display) ++ ['}'])

/-- view.rs:131-133 `remove_lens_group`. -/
def removeLensGroup (v : View) (buffer : Str) : View := v.filter fun bg => bg.1 ≠ buffer

/-- view.rs:135-137 `buffers`. -/
def buffers (v : View) : List Str := v.map Prod.fst

/-- view.rs:139-148 `as_vec`. -/
def asVec (v : View) : R (List ViewItem) := do
  let parts ← v.mapM fun bg => do
    let f ← LensGroup.focus bg.2
    return ViewItem.header bg.1 f :: bg.2.map (ViewItem.lens bg.1)
  return parts.flatten

/-- view.rs:150-152 `contains_buffer`. -/
def containsBuffer (v : View) (buffer : Str) : Bool := v.any fun bg => bg.1 = buffer

/-- view.rs:154-156 `is_empty`. -/
def isEmpty (v : View) : Bool := v.length == 0

end View

/-- A line sent to clients: its text and the ranges set to the selection face (`Decorator`, external). -/
structure DecoratedLine where
  text : Bytes
  selected : List (Nat × Nat)
deriving DecidableEq, Repr

/-- protocol.rs `ViewParamsLens`. -/
structure ViewParamsLens where
  lines : List DecoratedLine
  firstLineNum : Nat
deriving DecidableEq, Repr

/-- protocol.rs `ViewParamsItem`. -/
structure ViewParamsItem where
  buffer : Str
  start : Nat
  stop : Nat
  lenses : List ViewParamsLens
deriving DecidableEq, Repr

/-- buffer.rs:111-116 `lines`. -/
def Buffer.lines (b : Buffer) (focus : Focus) : R (List Bytes) := do
  let ls ← b.content.lines
  match focus with
  | .range x y => sliceR ls x y
  | .whole => return ls

/-- view.rs:191-207: the coordinates of the two ends of a selection. -/
def selectionEnds (seg : Segmentation) (t : PieceTable) (s : Selection) : R (Coords × Coords) := do
  let start ← t.offsetToCoord seg s.first
  let start ← unwrapR start
  let m ← t.maxOffset
  if s.last = m then
    let e ← t.offsetToCoord seg s.last
    let e ← unwrapR e
    return (start, { e with c := e.c + 1 })
  else
    let coord ← t.offsetToCoord seg s.last
    let nv ← Navigator.navigate seg t coord
    let nv ← unwrapR nv
    let nv ← nv.next seg t
    let p ← nv.pos seg t
    return (start, p.coords)

/-- view.rs:208-237: the ranges of the lines (from 0) covered by a selection between two coordinates. -/
def selectedRanges (a b : Coords) : R (List (Nat × (Option Nat × Option Nat))) :=
  if a.l = b.l then do
    let x ← subChecked a.c 1
    let y ← subChecked b.c 1
    let i ← subChecked a.l 1
    return [(i, (some x, some y))]
  else do
    let bl ← subChecked b.l 1
    if a.l = bl ∧ b.c = 1 then
      let x ← subChecked a.c 1
      let i ← subChecked a.l 1
      return [(i, (some x, none))]
    else
      (List.range' a.l (b.l + 1 - a.l)).mapM fun i => do
        let r ← if i = a.l then do
            let x ← subChecked a.c 1
            pure (some x, none)
          else if i = b.l then do
            let y ← subChecked b.c 1
            pure (none, some y)
          else pure (none, none)
        let k ← subChecked i 1
        return (k, r)

/-- view.rs:248-263: the range set on a line of `n` bytes. -/
def decoRange (n : Nat) : Option Nat × Option Nat → Nat × Nat
  | (some a, some b) => (a, b)
  | (some a, none) => (a, n)
  | (none, some b) => (0, b)
  | (none, none) => (0, n)

/-- view.rs:185-271: a lens. -/
def lensParams (seg : Segmentation) (buffers : Assoc Str Buffer) (selections : Option (Assoc Str (List Selection)))
    (name : Str) (focus : Focus) : R ViewParamsLens := do
  let buffer ← buffers.at! name
  let sels := (selections.bind fun ss => Assoc.get ss name).getD []
  let selected ← sels.mapM fun s => do
    let (a, b) ← selectionEnds seg buffer.content s
    selectedRanges a b
  let selected := selected.flatten
  let ls ← buffer.lines focus
  let lines := ls.mapIdx fun i line =>
    let l := line ++ [32]
    { text := l, selected := (selected.filter (·.1 = i)).map fun r => decoRange l.length r.2 : DecoratedLine }
  return { lines := lines, firstLineNum := focus.start + 1 }

/-- view.rs:166-184: the header of a group. -/
def headerParams (buffers : Assoc Str Buffer) (name : Str) : Focus → R ViewParamsItem
  | .range x y => .ok { buffer := name, start := x + 1, stop := y, lenses := [] }
  | .whole => do
    let b ← buffers.at! name
    let n ← b.content.lineCount
    return { buffer := name, start := 1, stop := n, lenses := [] }

/-- view.rs:158-278 `to_notification_params`: one item per group (a header starts a new item, the lenses after it go
into it). -/
def View.toNotificationParams (seg : Segmentation) (v : View) (buffers : Assoc Str Buffer)
    (selections : Option (Assoc Str (List Selection))) : R (List ViewParamsItem) := do
  let items ← v.asVec
  let r ← items.foldlM (fun (acc : List ViewParamsItem × Option ViewParamsItem) item =>
    match item with
    | .header b f => do
      let h ← headerParams buffers b f
      return (acc.1 ++ acc.2.toList, some h)
    | .lens b f => do
      let l ← lensParams seg buffers selections b f
      return (acc.1, acc.2.map fun c => { c with lenses := c.lenses ++ [l] })) ([], none)
  return r.1 ++ r.2.toList

end Ced

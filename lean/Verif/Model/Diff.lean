import Verif.Model.Text

/-! # Model of `core/src/editor/diff.rs` and of `PieceTable::apply_diff` -/

namespace Ced

/-- diff.rs:3-8 `enum Diff`. -/
inductive Diff where
  | left (n : Nat)
  | both (n : Nat)
  | right (n : Nat)
deriving DecidableEq, Repr

namespace DiffM

/-- diff.rs:14-17: length of the common prefix. -/
def commonPrefix : Bytes → Bytes → Nat
  | x :: xs, y :: ys => if x = y then commonPrefix xs ys + 1 else 0
  | _, _ => 0

/-- diff.rs:10-29 `precompute`.  The second loop of the code counts equal bytes from the end as long as
it does not run into the common prefix, i.e. it is the common prefix of the reversed remainders. -/
def precompute (b1 b2 : Bytes) : Nat × Option Nat :=
  let start := commonPrefix b1 b2
  let stop := commonPrefix (b1.drop start).reverse (b2.drop start).reverse
  if start = stop ∨ stop = 0 then (start, none) else (start, some stop)

/-- diff.rs:36-56: one entry of the table, given the row above (`none` for row 0), the entry on the
left and the column. -/
def cell (above : Option (List Nat)) (leftEntry : Nat) (x y : UInt8) (j : Nat) : Nat :=
  if x = y then
    match above with
    | none => 1
    | some row => if j = 0 then 1 else row[j - 1]?.getD 0 + 1
  else
    match above with
    | none => if j = 0 then 0 else leftEntry
    | some row => if j = 0 then row[j]?.getD 0 else max leftEntry (row[j]?.getD 0)

/-- One row of the table from column `j` on. -/
def rowFrom (above : Option (List Nat)) (x : UInt8) (leftEntry j : Nat) : Bytes → List Nat
  | [] => []
  | y :: ys =>
    let v := cell above leftEntry x y j
    v :: rowFrom above x v (j + 1) ys

/-- diff.rs:35-57: the rows of the table, concatenated as in the flat vector `mt`. -/
def tableFrom (above : Option (List Nat)) (right : Bytes) : Bytes → List Nat
  | [] => []
  | x :: xs =>
    let row := rowFrom above x 0 0 right
    row ++ tableFrom (some row) right xs

/-- diff.rs:59-77: the way back through the table.  `i` and `j` are the `isize` variables of the code
plus one; `fuel` bounds the number of iterations (each one decreases `i + j`). -/
def backtrack (left right : Bytes) (mt : List Nat) : Nat → Nat → Nat → Bytes → R Bytes
  | fuel + 1, i + 1, j + 1, lcs => do
    let x ← indexR left i
    let y ← indexR right j
    if x = y then backtrack left right mt fuel i j (x :: lcs)
    else if j = 0 ∧ i = 0 then return lcs
    else
      let goLeft ← (if i = 0 then .ok true else do
        let k ← subChecked (i * right.length + j) 1
        let a ← indexR mt k
        let b ← indexR mt ((i - 1) * right.length + j)
        return decide (a > b) : R Bool)
      if goLeft then backtrack left right mt fuel (i + 1) j lcs
      else backtrack left right mt fuel i (j + 1) lcs
  | _, _, _, lcs => .ok lcs

/-- diff.rs:31-80 `find_lcs`. -/
def findLcs (left right : Bytes) : R Bytes := do
  let mt := tableFrom none right left
  let i ← subChecked left.length 1
  let j ← subChecked right.length 1
  backtrack left right mt (left.length + right.length) (i + 1) (j + 1) []

/-- diff.rs:108-115 and 117-124: skip until the byte `c`; the number skipped and what remains
(`l[i..]` is represented by the remaining list). -/
def skipTo (c : UInt8) : Bytes → Nat × Bytes
  | [] => (0, [])
  | x :: xs => if x = c then (0, x :: xs) else ((skipTo c xs).1 + 1, (skipTo c xs).2)

/-- diff.rs:126-136: the run of common bytes; `its` is the rest of the iterator over the common
subsequence. -/
def runBoth (c : UInt8) : Bytes → Bytes → Bytes → Nat → R (Nat × Bytes × Bytes × Bytes)
  | [], _, _, _ => .error .index
  | x :: xs, rr, its, len =>
    if x = c then
      match rr with
      | [] => .error .index
      | y :: ys =>
        if y = c then
          match its with
          | [] => .ok (len + 1, xs, ys, [])
          | v :: its' => runBoth v xs ys its' (len + 1)
        else .ok (len, x :: xs, y :: ys, its)
    else .ok (len, x :: xs, rr, its)

/-- `if len > 0 { diffs.push(...) }` -/
def pushPos (mk : Nat → Diff) (n : Nat) : List Diff := if n > 0 then [mk n] else []

/-- diff.rs:106-140: the main loop; `fuel` bounds the number of elements taken from the iterator. -/
def loop : Nat → Bytes → Bytes → Bytes → R (List Diff × Bytes × Bytes)
  | fuel + 1, l, r, c :: its => do
    let sl := skipTo c l
    let sr := skipTo c r
    let b ← runBoth c sl.2 sr.2 its 0
    let rest ← loop fuel b.2.1 b.2.2.1 b.2.2.2
    return (pushPos .left sl.1 ++ pushPos .right sr.1 ++ pushPos .both b.1 ++ rest.1, rest.2)
  | _, l, r, _ => .ok ([], l, r)

/-- diff.rs:99-152: the rest of `diff`, once the common prefix and suffix are known. -/
def diffFrom (left right : Bytes) (start stop : Nat) : R (List Diff) := do
  let l := (left.take (left.length - stop)).drop start
  let r := (right.take (right.length - stop)).drop start
  let lcs ← findLcs l r
  let res ← loop lcs.length l r lcs
  -- `i < l.len() - 1` with `l[i..]` the remaining list
  let n ← subChecked l.length 1
  let m ← subChecked r.length 1
  let i := l.length - res.2.1.length
  let j := r.length - res.2.2.length
  return pushPos .both start ++ res.1
    ++ (if i < n then [.left (l.length - i)] else [])
    ++ (if j < m then [.right (r.length - j)] else [])
    ++ pushPos .both stop

/-- diff.rs:83-153 `diff`. -/
def diff (left right : Bytes) : R (List Diff) :=
  let pre := precompute left right
  match pre.2 with
  | some stop => diffFrom left right pre.1 stop
  | none => if pre.1 > 0 then .ok (pushPos .both pre.1) else diffFrom left right pre.1 0

end DiffM

/-- `str::is_char_boundary`. -/
def isCharBoundary (s : Bytes) (k : Nat) : Bool :=
  k == 0 || k == s.length || (match s[k]? with | some b => !isCont b | none => false)

/-- `&text[a..b]` on a `str`. -/
def strSliceR (s : Bytes) (a b : Nat) : R Bytes :=
  if a ≤ b ∧ b ≤ s.length ∧ isCharBoundary s a ∧ isCharBoundary s b then .ok ((s.drop a).take (b - a))
  else .error .index

namespace PieceTable

/-- piece_table/mod.rs:615-628: one step of the loop of `apply_diff`; `h` is what the external tree
does with a removed handle. -/
def applyOne (h : StaleHandle) (text : Bytes) (st : PieceTable × Nat × Nat) : Diff → R (PieceTable × Nat × Nat)
  | .left n => do
    let t ← st.1.delete h st.2.1 n
    return (t, st.2.1, st.2.2)
  | .right n => do
    let x ← strSliceR text st.2.2 (st.2.2 + n)
    return (st.1.insert st.2.1 x, st.2.1 + n, st.2.2 + n)
  | .both n => .ok (st.1, st.2.1 + n, st.2.2 + n)

/-- piece_table/mod.rs:607-630 `apply_diff`.  `hs` gives the behaviour of removed handles for each
step of the script. -/
def applyDiff (hs : Nat → StaleHandle) (t : PieceTable) (text : Bytes) : R PieceTable := do
  let original ← t.text
  let diffs ← DiffM.diff original text
  let t := t.startBulk
  let st ← (diffs.zipIdx).foldlM (fun st d => applyOne (hs d.2) text st d.1) (t, 0, 0)
  return st.1.endBulk

end PieceTable
end Ced

import Verif.Conformance.PieceTable
import Verif.Model.Core
import Verif.Model.Menu
import Verif.Model.PlainRegex
import Verif.Model.Rpc
import Verif.Model.Requests
import Verif.Model.Keys
import Verif.Model.SessionName
import Verif.Spec.JsonText

/-!
# The project's own unit tests of the other modules, replayed on the model

Tests of the model, not proofs of properties: the expected values are those of the `#[test]` functions of the code.
-/

namespace Ced.Conformance
open PieceTable Spec

/-! ## position.rs -/

/-- The iterator, to its end (at most `fuel` positions). -/
def allPositions (t : PieceTable) : Nat → PositionIterator → R (List Position)
  | 0, _ => .ok []
  | fuel + 1, it => do
    let (it, p) ← it.next perChar t
    match p with
    | none => return []
    | some p => return p :: (← allPositions t fuel it)

/-- The positions given for a text. -/
def positionsOf (s : Str) : R (List Position) := do
  let t := PieceTable.withText (u8 s)
  let it ← PositionIterator.ofTable perChar t
  allPositions t 100 it

/-- position.rs:63-84 the coordinates expected by `positions` -/
def expectedCoords : List Coords :=
  [⟨1, 1⟩, ⟨1, 2⟩, ⟨1, 3⟩, ⟨1, 4⟩, ⟨1, 5⟩, ⟨1, 6⟩, ⟨1, 7⟩, ⟨2, 1⟩, ⟨2, 2⟩, ⟨2, 3⟩, ⟨2, 4⟩, ⟨2, 5⟩, ⟨2, 6⟩]

/- position.rs:62-85 `positions`: what the iterator gives is a beginning of the list -/
example : ((positionsOf str!"line 1\n2 line").map fun ps =>
    (ps.map Position.coords).isPrefixOf expectedCoords).toOption = some true := by decide +kernel

/- position.rs:87-100 `ascii` -/
example : ((positionsOf str!"line 1\n2 line").map fun ps =>
    (ps.map fun p => (p.offset, p.grapheme)).isPrefixOf
      ((List.range 13).map fun i => (i, (((u8 str!"line 1\n2 line")[i]?).map fun b => [b])))).toOption = some true := by
  decide +kernel

/- position.rs:102-118 `unicode` -/
example : ((positionsOf str!"🚀∂⏰ØⓏ 1️⃣\n2 line").map fun ps =>
    (ps.map fun p => (p.offset, p.grapheme)).isPrefixOf
      [(0, some (u8 str!"🚀")), (4, some (u8 str!"∂"))]).toOption = some true := by decide +kernel

/-! ## navigator.rs -/

/-- navigator.rs:135-148 `make_table` -/
def navTable : PieceTable :=
  PieceTable.withText (u8 str!"Nam quis nulla.\nInteger malesuada. In in enim a arcu imperdiet malesuada.\nSed vel lectus. Donec odio")

/-- The coordinates at which the navigator stands after each step. -/
def walk (from? : Option Coords) (steps : List (Navigator → R Navigator)) : R (List Coords) := do
  let nv ← unwrapR (← Navigator.navigate perChar navTable from?)
  let (_, cs) ← steps.foldlM (fun st f => do
    let nv ← f st.1
    let p ← nv.pos perChar navTable
    return (nv, st.2 ++ [p.coords])) (nv, [])
  return cs

/-- navigator.rs:58-75 `next` on the table of the tests -/
abbrev nx : Navigator → R Navigator := Navigator.next perChar navTable
/-- navigator.rs:77-90 `previous` -/
abbrev pv : Navigator → R Navigator := Navigator.previous navTable
/-- navigator.rs:92-96 `next_line` -/
abbrev nl : Navigator → R Navigator := Navigator.nextLine navTable
/-- navigator.rs:98-103 `previous_line` -/
abbrev pl : Navigator → R Navigator := fun nv => .ok nv.previousLine
/-- Two calls in a row. -/
abbrev twice (f : Navigator → R Navigator) : Navigator → R Navigator := fun nv => do f (← f nv)

/- navigator.rs:150-170 `char` -/
example : (walk none [nx, twice pv, pv]).toOption = some [⟨1, 2⟩, ⟨1, 1⟩, ⟨1, 1⟩] := by decide +kernel
example : (walk (some ⟨3, 26⟩) [nx]).toOption = some [⟨3, 26⟩] := by decide +kernel
example : (walk (some ⟨2, 1⟩) [pv, nx]).toOption = some [⟨1, 16⟩, ⟨2, 1⟩] := by decide +kernel

/- navigator.rs:172-188 `line` -/
example : (walk none [nl, nl, nl, twice pl, pl]).toOption = some [⟨2, 1⟩, ⟨3, 1⟩, ⟨3, 1⟩, ⟨1, 1⟩, ⟨1, 1⟩] := by
  decide +kernel

/- navigator.rs:190-199 `whole` -/
example : (walk none [Navigator.end perChar navTable, fun nv => .ok nv.begin]).toOption = some [⟨3, 26⟩, ⟨1, 1⟩] := by
  decide +kernel
example : (do
    let nv ← Navigator.new perChar navTable
    let nv ← nv.end perChar navTable
    nv.isAtEnd perChar navTable : R Bool).toOption = some true := by decide +kernel

/-! ## diff.rs -/

/- diff.rs:157-168 `lcs` -/
example : (DiffM.findLcs (u8 str!"toto") (u8 str!"toto")).toOption = some (u8 str!"toto") := by decide +kernel
example : (DiffM.findLcs (u8 str!"toto") (u8 str!"titola")).toOption = some (u8 str!"tto") := by decide +kernel
example : (DiffM.findLcs (u8 str!"toto") (u8 str!"tata")).toOption = some (u8 str!"tt") := by decide +kernel
example : (DiffM.findLcs (u8 str!"the quick brown fox jumps over the lazy dog")
    (u8 str!"the sneaky fox jumps over the migthy bear")).toOption = some (u8 str!"the k fox jumps over the y ") := by
  decide +kernel

/-- diff.rs:170-189 `assert_diff`: the text rebuilt from the left one. -/
def rebuild (right : Bytes) : List Diff → Bytes × Nat × Nat → Bytes
  | [], st => st.1
  | .left n :: ds, (s, l, r) => rebuild right ds (s.take l ++ s.drop (l + n), l, r)
  | .right n :: ds, (s, l, r) => rebuild right ds (s.take l ++ (right.drop r).take n ++ s.drop l, l + n, r + n)
  | .both n :: ds, (s, l, r) => rebuild right ds (s, l + n, r + n)

/-- diff.rs:196-209 the length of one side of the differences -/
def leftLen (ds : List Diff) : Nat := (ds.map fun d => match d with | .both n | .left n => n | .right _ => 0).sum
/-- diff.rs:203-209 -/
def rightLen (ds : List Diff) : Nat := (ds.map fun d => match d with | .both n | .right n => n | .left _ => 0).sum

/-- diff.rs:192-193 -/
def closeLeft : Bytes := u8 str!"🦊 the quick brown fox jumps over the lazy dog 🐶, so quick"
/-- diff.rs:194 -/
def closeRight : Bytes := u8 str!"🦊 the sneaky fox jumps over the mighty bear 🐶, so quick"

/- diff.rs:191-214 `close_diff` -/
example : ((DiffM.diff closeLeft closeRight).map fun ds =>
    (leftLen ds, rightLen ds, rebuild closeRight ds (closeLeft, 0, 0))).toOption =
    some (closeLeft.length, closeRight.length, closeRight) := by decide +kernel

/- diff.rs:216-222 `far_diff` -/
example : ((DiffM.diff (u8 str!"the really quick brown fox jumps over the lazy dog 🐶, so fast")
    (u8 str!"nothing to see here")).map fun ds =>
      rebuild (u8 str!"nothing to see here") ds
        (u8 str!"the really quick brown fox jumps over the lazy dog 🐶, so fast", 0, 0)).toOption =
    some (u8 str!"nothing to see here") := by decide +kernel

/-! ## stackmap.rs -/

/- stackmap.rs:93-108 `lifecycle` -/
example : (StackMap.new : StackMap Nat Str).latest = none ∧ (StackMap.new : StackMap Nat Str).latestValue = none ∧
    ((StackMap.new : StackMap Nat Str).setLast 1).isNone := by decide +kernel
example : (do
    let (a, _) ← (StackMap.new : StackMap Nat Str).insert 1 str!"1"
    let (b, _) ← a.insert 2 str!"2"
    let (b, _) ← b.insert 3 str!"3"
    let c ← unwrapR (b.setLast 2)
    let (d, _) := c.remove 2
    return (a.latest, a.latestValue, b.latest, c.latest, d.latest) : R _).toOption =
    some (some 1, some str!"1", some 3, some 2, some 3) := by decide +kernel

/-! ## buffer.rs -/

/-- buffer.rs:200-206 -/
def sources : List BufferSource :=
  [.scratch str!"*buffer*", .file [str!"some", str!"file.ext"], .file [str!"some", str!"where", str!"file.where"],
   .file [str!"any", str!"where", str!"file.where"], .file [str!"any", str!"where", str!"here", str!"file.where"]]

/- buffer.rs:198-213 `shortest_name` -/
example : sources.map (fun s => (ShortName.findShortestName sources s).toOption) =
    [some str!"*buffer*", some str!"file.ext", some str!"some/where/file.where", some str!"any/where/file.where",
     some str!"here/file.where"] := by decide +kernel

/- buffer.rs:215-231 `open_file`, of a file of two lines -/
example : (do
    let b ← Buffer.newFile (fun _ => some ⟨u8 str!"[package]\nname = \"ced\"\n", 1⟩) 2 [str!"Cargo.toml"]
    let ls ← b.lines .whole
    return (b.source, b.lastSync.isSome, ls) : R _).toOption =
    some (.file [str!"Cargo.toml"], true, [u8 str!"[package]", u8 str!"name = \"ced\""]) := by decide +kernel

/-! ## view.rs -/

/- view.rs:286-315 `key` -/
example : View.key [] = str!"" := by decide +kernel
example : (View.addLens (View.addLens [] str!"buffer1" (.range 10 12)) str!"buffer2" .whole).key =
    str!"buffer1{10..12}|buffer2{*}" := by decide +kernel
example : (View.addLens (View.addLens (View.addLens [] str!"buffer1" (.range 10 12)) str!"buffer1" (.range 20 51))
    str!"buffer2" .whole).key = str!"buffer1{10..12,20..51}|buffer2{*}" := by decide +kernel

/-! ## menu.rs -/

/-- The regular expressions of the searches of the tests. -/
def searchOf (ws : List Str) : Compile := fun p =>
  if p = str!"(?i)" ++ Menu.join str!".*" (ws.map fun w => ['('] ++ w ++ [')'])
  then some (PlainRegex.regex (fun a b => asciiLower a = asciiLower b) ws) else none

/-- The objects of the candidates, in order. -/
def found (ws : List Str) (search : Str) (items : List Str) : Option (List Str) :=
  ((Menu.filter id (searchOf ws) search items).map fun cs => cs.map Menu.Candidate.object).toOption

/-- menu.rs:200, 213 the words of the search of the first two tests -/
def projFilExt : List Str := [str!"proj", str!"fil", str!"ext"]

/- menu.rs:177-207 `test_match_path` -/
example : found projFilExt str!"proj fil ext"
    [str!"/abs/path/here", str!"/tmp", str!"/project/module/file.ext", str!"/project/modula/file.ext",
     str!"/project/submodule/file.ext", str!"/project/file.ext", str!"/project/file", str!"/project/amodule/file.ext",
     str!"/proj/file/ext/other.ext"] =
    some [str!"/project/file.ext", str!"/proj/file/ext/other.ext", str!"/project/modula/file.ext",
      str!"/project/module/file.ext", str!"/project/amodule/file.ext", str!"/project/submodule/file.ext",
      str!"/abs/path/here", str!"/project/file", str!"/tmp"] := by decide +kernel

/- menu.rs:209-252 `test_multiple_searches` -/
example : found projFilExt str!"proj fil ext"
    [str!"/abs/path/here", str!"/project/module/file.ext", str!"/project/submodule/file.ext", str!"/project/file",
     str!"/proj/file/ext/other.ext"] =
    some [str!"/proj/file/ext/other.ext", str!"/project/module/file.ext", str!"/project/submodule/file.ext",
      str!"/abs/path/here", str!"/project/file"] := by decide +kernel
example : found projFilExt str!"proj fil ext"
    [str!"/tmp", str!"/project/modula/file.ext", str!"/project/file.ext", str!"/project/amodule/file.ext"] =
    some [str!"/project/file.ext", str!"/project/modula/file.ext", str!"/project/amodule/file.ext", str!"/tmp"] := by
  decide +kernel

/- menu.rs:254-299 `test_tokenize` -/
example : (do
    let cs ← Menu.filter id (searchOf [str!"proj", str!"src", str!"ext"]) str!"proj src ext"
      [str!"/project/src/file.ext", str!"project/no/match/file.ext"]
    cs.mapM fun c => Menu.tokenize c.object c.locations : R _).toOption =
    some [[⟨str!"/", false⟩, ⟨str!"proj", true⟩, ⟨str!"ect/", false⟩, ⟨str!"src", true⟩, ⟨str!"/file.", false⟩,
       ⟨str!"ext", true⟩],
      [⟨str!"project/no/match/file.ext", false⟩]] := by decide +kernel

/-! ## core.rs -/

/- core.rs:771-781 `error_message_normalization` -/
example : normalizeErrorMessage str!"just a simple message" = str!"just a simple message" := by decide +kernel
example : normalizeErrorMessage str!"a complicated message\n\twith lines\n\t\tand lines" =
    str!"a complicated message\\n with lines\\n and lines" := by decide +kernel

/-! ## jsonrpc.rs (the texts of the tests without their blanks: the parser is external) -/

/-- The parameters used by the tests. -/
def twoItems : Json := .arr [.str str!"item 1", .str str!"item 2"]

/- jsonrpc.rs:369-385 `deserialize_request` -/
example : ((JsonText.parse str!"{\"jsonrpc\":\"2.0\",\"id\":100,\"method\":\"func1\",\"params\":[\"item 1\",\"item 2\"]}").bind
    Request.decode).map (fun r => (r.id, r.method, r.params)) = some (.number 100, str!"func1", some twoItems) := by
  decide +kernel

/- jsonrpc.rs:387-401 `deserialize_notification` -/
example : ((JsonText.parse str!"{\"jsonrpc\":\"2.0\",\"method\":\"func1\",\"params\":[\"item 1\",\"item 2\"]}").bind
    Notification.decode).map (fun r => (r.method, r.params)) = some (str!"func1", some twoItems) := by decide +kernel

/- jsonrpc.rs:403-413 `deserialize_notification_no_params` -/
example : ((JsonText.parse str!"{\"jsonrpc\":\"2.0\",\"method\":\"func1\"}").bind
    Notification.decode).map (fun r => (r.method, r.params)) = some (str!"func1", none) := by decide +kernel

/- jsonrpc.rs:415-429 `deserialize_response` -/
example : ((JsonText.parse str!"{\"jsonrpc\":\"2.0\",\"id\":100,\"result\":[\"item 1\",\"item 2\"]}").bind
    Response.decode).map (fun r => (r.id, r.getResult.toOption.bind Except.toOption)) =
    some (.number 100, some twoItems) := by decide +kernel

/- jsonrpc.rs:431-446 `deserialize_response_error` -/
example : ((JsonText.parse str!"{\"jsonrpc\":\"2.0\",\"id\":100,\"error\":{\"code\":-32601,\"message\":\"Method not found\",\"data\":\"more details\"}}").bind
    Response.decode).map (fun r => (r.id, r.getResult.toOption.bind fun x => match x with
      | .error e => some (e.code, e.message, e.data)
      | .ok _ => none)) =
    some (.number 100, some (-32601, str!"Method not found", some (.str str!"more details"))) := by decide +kernel

/-- Which kind of event a text is. -/
def eventKind (s : Str) : Option Bool :=
  ((JsonText.parse s).bind ClientEvent.decode).map fun e => match e with
    | .notification _ => true
    | .response _ => false

/- jsonrpc.rs:448-464 `deserialize_client_events` -/
example : eventKind str!"{\"jsonrpc\":\"2.0\",\"method\":\"func1\"}" = some true := by decide +kernel
example : eventKind str!"{\"jsonrpc\":\"2.0\",\"id\":100,\"result\":[\"item 1\",\"item 2\"]}" = some false := by
  decide +kernel

/-! ## keys.rs -/

/- keys.rs:144-195 `convert` -/
example : (KeyEvent.ofStr str!"a").toOption = some ⟨false, false, false, .char 'a'⟩ := by decide +kernel
example : (KeyEvent.ofStr str!"c-a").toOption = some ⟨true, false, false, .char 'a'⟩ := by decide +kernel
example : (KeyEvent.ofStr str!"c-s-a").toOption = some ⟨true, false, true, .char 'a'⟩ := by decide +kernel
example : KeyEvent.ofChar 'c' = ⟨false, false, false, .char 'c'⟩ := by decide +kernel
example : (KeyEvent.ofStr (KeyEvent.display ⟨false, true, false, .char 'é'⟩)).toOption =
    some ⟨false, true, false, .char 'é'⟩ := by decide +kernel
example : (KeyEvent.ofStr (KeyEvent.display ⟨true, true, false, .char ','⟩)).toOption =
    some ⟨true, true, false, .char ','⟩ := by decide +kernel

/-! ## session.rs -/

/-- `\w` and `\d` on the names of the tests. -/
def asciiOnly : Classes where
  word c := c.isAlphanum || c = '_'
  digit c := c.isDigit

/- session.rs:119-137 `connection_parse` -/
example : [str!"/tmp/foo", str!"@bar", str!"@:8888", str!"@1.2.3.4:8888"].map
    (fun s => (SessionName.parse asciiOnly s).toOption) =
    [some (.socket str!"/tmp/foo"), some (.socket str!"@bar"), some (.tcp ⟨127, 0, 0, 1, 8888⟩),
     some (.tcp ⟨1, 2, 3, 4, 8888⟩)] := by decide +kernel

/- session.rs:139-155 `connection_display` -/
example : [SessionName.Mode.socket str!"/tmp/foo", .socket str!"@bar", .socket str!"🍺 → 😃", .tcp ⟨127, 0, 0, 1, 8888⟩].map
    (fun m => m.display.toOption) =
    [some str!"foo", some str!"@bar", some str!"🍺 → 😃", some str!"@127.0.0.1:8888"] := by decide +kernel

end Ced.Conformance

import Verif.Model.Positions
import Verif.Model.Diff
import Verif.Model.StackMap
import Verif.Model.ShortName
import Verif.Model.Str
import Verif.Spec.Unicode

/-!
# The project's own tests of the piece table, replayed on the model

These are tests of the model, not proofs of properties: the expected values are those of the `#[test]` functions of the
code, which the code meets; the model meets them too.  (One list of results per test function; the kernel computes them.)
-/

namespace Ced.Conformance
open PieceTable Spec

/-- The UTF-8 bytes of a text. -/
abbrev u8 (s : Str) : Bytes := encode s

/-- The handles of the crate, as the code expects them. -/
def handle : StaleHandle := ⟨true, 0⟩

/-- One cluster per character, but the marks U+FE0F and U+20E3 belong to what precedes them: what `bstr` gives for the texts of the
tests. -/
def perCharAux : Nat → Bytes → List Bytes
  | 0, _ => []
  | _, [] => []
  | fuel + 1, b :: bs =>
    let n := (utf8Head (b :: bs)).2
    let c := (b :: bs).take n
    let rest := (b :: bs).drop n
    match perCharAux fuel rest with
    | [] => [c]
    | g :: gs =>
      if (u8 ['\uFE0F']).isPrefixOf rest || (u8 ['\u20E3']).isPrefixOf rest then (c ++ g) :: gs else c :: g :: gs

/-- The same, with enough fuel. -/
def perChar : Segmentation := fun l => perCharAux l.length l

/-- mod.rs:652-658, 711-717, 731-737 -/
def foxTable : PieceTable :=
  let t := PieceTable.new
  let t := t.insert 0 (u8 str!"the fox jumps over the dog")
  let t := t.insert 4 (u8 str!"quick brown ")
  let t := t.insert 35 (u8 str!"lazy ")
  let t := t.append (u8 str!" 🐶")
  let t := t.insert 0 (u8 str!"🦊 ")
  t.insert 56 (u8 str!", so quick")

example : foxTable.text.toOption = some (u8 str!"🦊 the quick brown fox jumps over the lazy dog 🐶, so quick") := by decide +kernel

/-- mod.rs:668-691 `delete` -/
def deleteTest : R (List (Option Bytes)) := do
  let t := PieceTable.new
  let t := t.insert 0 (u8 str!"the fox jumps over the dog")
  let t := t.insert 3 (u8 str!" quick brown")
  let t := t.insert 35 (u8 str!"lazy ")
  let t := t.append (u8 str!" 🐶")
  let t := t.insert 0 (u8 str!"🦊 ")
  let t := t.insert 56 (u8 str!", so quick")
  let a ← t.textRange 9 21
  let t ← t.delete handle 9 12
  let b ← t.textRange 28 33
  let t ← t.delete handle 28 5
  let c ← t.text
  return [a, b, c]
example : deleteTest.toOption = some [some (u8 str!"quick brown "), some (u8 str!"lazy "), some (u8 str!"🦊 the fox jumps over the dog 🐶, so quick")] := by decide +kernel

/-- mod.rs:693-708 `delete_empty`, `delete_all` -/
def deleteAllTest : R (List Bytes) := do
  let t ← PieceTable.new.delete handle 9 12
  let u := PieceTable.new.append (u8 str!"the fox jumps over the dog")
  let u ← u.delete handle 0 26
  return [← t.text, ← u.text]
example : deleteAllTest.toOption = some [[], []] := by decide +kernel

/-- mod.rs:710-728 `replace` -/
def replaceTest : R Bytes := do
  let t ← foxTable.replace handle 9 11 (u8 str!"sneaky")
  let t ← t.replace handle 35 8 (u8 str!"mighty bear")
  t.text
example : replaceTest.toOption = some (u8 str!"🦊 the sneaky fox jumps over the mighty bear 🐶, so quick") := by decide +kernel

/-- mod.rs:730-745 `apply_diff` -/
def applyDiffTest : R Bytes := do
  let t ← foxTable.applyDiff (fun _ => handle) (u8 str!"🦊 the sneaky fox jumps over the mighty bear 🐶, so quick")
  t.text
example : applyDiffTest.toOption = some (u8 str!"🦊 the sneaky fox jumps over the mighty bear 🐶, so quick") := by decide +kernel

/-- mod.rs:747-765 `consecutive` -/
def consecutiveTest : R (List (Bytes × Nat)) := do
  let t := PieceTable.new
  let t := t.append (u8 str!"Where is")
  let t := t.append (u8 str!" ")
  let t := t.append (u8 str!"my mind")
  let t := t.append (u8 str!"?")
  let a := (← t.text, t.pieces.length)
  let t := { t with pieces := t.pieces.repack }
  let b := (← t.text, t.pieces.length)
  let t := t.insert 0 (u8 str!"Hey. ")
  let t := { t with pieces := t.pieces.repack }
  return [a, b, (← t.text, t.pieces.length)]
example : consecutiveTest.toOption = some [(u8 str!"Where is my mind?", 4), (u8 str!"Where is my mind?", 1), (u8 str!"Hey. Where is my mind?", 2)] := by decide +kernel

/-- mod.rs:767-810 `undo_redo` -/
def undoRedoTest : R (List Bool × List Bytes) := do
  let t := PieceTable.withText (u8 str!"🦊 the quick brown fox jumps over the lazy dog 🐶, so quick")
  let (t, b1) := t.undo
  let t ← t.delete handle 53 10
  let s1 ← t.text
  let (t, b2) := t.undo
  let (t, b3) := t.undo
  let s2 ← t.text
  let (t, b4) := t.redo
  let (t, b5) := t.redo
  let s3 ← t.text
  let t := t.append (u8 str!", so fast")
  let t := t.insert 9 (u8 str!"really ")
  let s4 ← t.text
  let t ← t.delete handle 0 5
  let s5 ← t.text
  let (t, b6) := t.undo
  let s6 ← t.text
  let (t, b7) := t.undo
  let s7 ← t.text
  let (t, b8) := t.redo
  let (t, b9) := t.redo
  let s8 ← t.text
  let t ← t.applyDiff (fun _ => handle) (u8 str!"nothing to see here")
  let s9 ← t.text
  let (t, b10) := t.undo
  let s10 ← t.text
  let (t, b11) := t.redo
  let s11 ← t.text
  return ([b1, b2, b3, b4, b5, b6, b7, b8, b9, b10, b11], [s1, s2, s3, s4, s5, s6, s7, s8, s9, s10, s11])

/-- The results the test `undo_redo` of mod.rs expects. -/
def undoRedoExpected : List Bool × List Bytes :=
  let text := u8 str!"🦊 the quick brown fox jumps over the lazy dog 🐶, so quick"
  let deleted := u8 str!"🦊 the quick brown fox jumps over the lazy dog 🐶"
  let inserted := u8 str!"🦊 the really quick brown fox jumps over the lazy dog 🐶, so fast"
  let redeleted := u8 str!"the really quick brown fox jumps over the lazy dog 🐶, so fast"
  let newText := u8 str!"nothing to see here"
  ([false, true, false, true, false, true, true, true, true, true, true],
   [deleted, text, deleted, inserted, redeleted, inserted, deleted, redeleted, newText, redeleted, newText])
example : undoRedoTest.toOption = some undoRedoExpected := by decide +kernel

/-- mod.rs:812-836 `newline_caching` -/
def newlineTest : R (List (List Nat)) := do
  let t := PieceTable.new
  let a := t.newlines
  let t := t.append (u8 str!"first line\nsecond line\nthe end")
  let b := t.newlines
  let t := t.insert 11 (u8 str!"surprise line\n")
  let c := t.newlines
  let t ← t.replace handle 11 8 (u8 str!"another")
  let d := t.newlines
  let t ← t.delete handle 11 24
  return [a, b, c, d, t.newlines]
example : newlineTest.toOption = some [[], [10, 22], [10, 24, 36], [10, 23, 35], [10, 11]] := by decide +kernel

/-- mod.rs:838-847 `line_length` -/
def lineLengthTest : R (List Nat × Nat × Nat) := do
  let t := PieceTable.withText (u8 str!"first line\nsecond line\nthe end")
  return ([← t.lineLength 1, ← t.lineLength 2, ← t.lineLength 3, ← t.lineLength 4], ← t.longestLine)
example : lineLengthTest.toOption = some ([10, 11, 7, 0], 2, 11) := by decide +kernel

/-- mod.rs:849-859 `line` -/
def lineTest : R (List (Option Bytes)) := do
  let t := PieceTable.withText (u8 str!"What does the 🦊 says?\n❓ It's a mystery.\nA real mystery.")
  return [← t.lineText 0, ← t.lineText 1, ← t.lineText 2, ← t.lineText 3, ← t.lineText 10]
example : lineTest.toOption = some [none, some (u8 str!"What does the 🦊 says?"), some (u8 str!"❓ It's a mystery."), some (u8 str!"A real mystery."), none] := by decide +kernel

/-- mod.rs:862-884 -/
def poem : PieceTable := PieceTable.withText (u8 str!"Vous qui venez ici\ndans une humble posture\n\nDe vos flancs alourdis\ndécharger le fardeau\n\nVeuillez quand vous aurez\nSoulagé la nature\n\nEt déposé dans l'urne\nun modeste cadeau\n\nEpancher dans l'amphore\nun courant d'onde pure\n\nEt sur l'autel fumant\nplacer pour chapiteau\n\nLe couvercle arrondi\ndont l'auguste jointure\n\nAux parfums indiscrets\ndoit servir de tombeau")

/-- mod.rs:886-904 -/
def linesRangeTest : R (List (List Bytes)) := do
  return [← poem.linesRange perChar ⟨1, 6⟩ ⟨1, 15⟩, ← poem.linesRange perChar ⟨1, 1⟩ ⟨2, 1⟩, ← poem.linesRange perChar ⟨4, 1⟩ ⟨6, 1⟩,
    ← poem.linesRange perChar ⟨7, 10⟩ ⟨8, 8⟩]
example : linesRangeTest.toOption = some [[u8 str!"qui venez"], [u8 str!"Vous qui venez ici"],
  [u8 str!"De vos flancs alourdis", u8 str!"décharger le fardeau"], [u8 str!"quand vous aurez", u8 str!"Soulagé"]] := by decide +kernel

/-- mod.rs:906-920 -/
def coordTest : R (List (Option Coords) × List (Option Nat)) := do
  let o1 ← poem.coordToOffset perChar ⟨4, 15⟩
  let o2 ← poem.coordToOffset perChar ⟨5, 5⟩
  return ([← poem.offsetToCoord perChar (← unwrapR o1), ← poem.offsetToCoord perChar (← unwrapR o2)],
    [← poem.coordToOffset perChar ⟨3, 999⟩, ← poem.coordToOffset perChar ⟨9999, 9999⟩])
example : coordTest.toOption = some ([some ⟨4, 15⟩, some ⟨5, 5⟩], [none, none]) := by decide +kernel

/-- mod.rs:922-938 `coordinates_one_line`, `coordinates_unicode` -/
def coordTests : R (List (Option Nat)) := do
  let t := PieceTable.withText (u8 str!"What does the fox says?")
  let u := PieceTable.withText (u8 str!"What does the 🦊 says?\n❓ It's a mystery.")
  return [← t.coordToOffset perChar ⟨1, 5⟩, ← t.coordToOffset perChar ⟨1, 15⟩, ← u.coordToOffset perChar ⟨1, 5⟩, ← u.coordToOffset perChar ⟨1, 15⟩,
    ← u.coordToOffset perChar ⟨1, 16⟩, ← u.coordToOffset perChar ⟨2, 3⟩, ← u.coordToOffset perChar ⟨3, 14⟩]
example : coordTests.toOption = some [some 4, some 14, some 4, some 14, some 18, some 29, none] := by decide +kernel

/-- mod.rs:941-947 -/
def latin : PieceTable := PieceTable.withText (u8 str!"Natoque.\nUllamcorper ultrices 💘🐬🌜👤🎑🍶🔃 eget accumsan ipsum nunc est eget 🔔🏇💡🔈👝🐚👓🔯🎦👯🍭 🍪🐯🍵 feugiat eget enim, 💉🎽🐂🎂 mauris nisi, non at 🔬👨🔀 odio.\nVolutpat massa, et sit aliquam vestibulum, eu nisl rhoncus, commodo, at ac tempor, neque, congue aliquam quam nulla sit nisl sed.\nDolor.")

/-- mod.rs:948-957 -/
def charAtTest : R (List (Option Bytes)) := do
  return [← latin.charAt perChar ⟨1, 3⟩, ← latin.charAt perChar ⟨2, 20⟩, ← latin.charAt perChar ⟨2, 22⟩, ← latin.charAt perChar ⟨2, 24⟩,
    ← latin.charAt perChar ⟨3, 20⟩, ← latin.charAt perChar ⟨4, 2⟩, ← latin.charAt perChar ⟨1, 9999⟩, ← latin.charAt perChar ⟨4, 9999⟩,
    ← latin.charAt perChar ⟨5, 1⟩]
example : charAtTest.toOption = some [some (u8 str!"t"), some (u8 str!"s"), some (u8 str!"💘"), some (u8 str!"🌜"), some (u8 str!"s"), some (u8 str!"o"), none, none, none] := by decide +kernel

end Ced.Conformance

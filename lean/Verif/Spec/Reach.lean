import Verif.Model.History
import Verif.Model.Diff
import Verif.Spec.Unicode

/-!
# Buffers reachable through the interface, and what they show

`Shows t s` is the observable meaning of "the buffer holds the text `s`": its length is that of `s` and
every range read returns the corresponding bytes of `s` (and nothing when it starts past the end).
-/

namespace Ced.Spec

/-- The buffer holds the text `s`, as far as its length and the reading of ranges can tell. -/
def Shows (t : PieceTable) (s : Bytes) : Prop :=
  t.len = s.length ∧
  ∀ a b, a ≤ b → t.range a b = .ok (if a < s.length then some (slice s a b) else none)

/-- The text carried by an edit. -/
def Edit.text : Edit → Option Bytes
  | .insert _ x => some x
  | .append x => some x
  | .replace _ _ x => some x
  | _ => none

/-- All buffers that calls of the interface can produce: a new buffer, a buffer on a non-empty text,
and then any sequence of completed edits satisfying `okEdit` (whose texts are not empty), and
completed whole-text updates by texts satisfying `okText`.  The external tree follows removed handles. -/
inductive Reachable (okEdit : Edit → Prop) (okText : Bytes → Prop) : PieceTable → Prop
  | new : Reachable okEdit okText PieceTable.new
  | withText {s : Bytes} (hs : s ≠ []) (ok : okText s) : Reachable okEdit okText (PieceTable.withText s)
  | edit {t t' : PieceTable} {h : StaleHandle} {e : Edit} {b : Bool} (r : Reachable okEdit okText t)
      (hf : h.follows = true) (ok : okEdit e) (ne : ∀ x, e.text = some x → x ≠ [])
      (hs : t.step h e = .ok (t', b)) : Reachable okEdit okText t'
  | update {t t' : PieceTable} {hs : Nat → StaleHandle} {x : Bytes} (r : Reachable okEdit okText t)
      (hf : ∀ i, (hs i).follows = true) (ok : okText x) (hd : t.applyDiff hs x = .ok t') :
      Reachable okEdit okText t'

/-- Any history. -/
def AnyHistory : PieceTable → Prop := Reachable (fun _ => True) (fun _ => True)

/-- Histories without undo and redo. -/
def ForwardHistory : PieceTable → Prop := Reachable (fun e => e ≠ .undo ∧ e ≠ .redo) (fun _ => True)

/-- Histories in which undo and redo only happen when they leave every line break of the text where it is. -/
inductive SteadyHistory : PieceTable → Prop
  | new : SteadyHistory PieceTable.new
  | withText {s : Bytes} (hs : s ≠ []) : SteadyHistory (PieceTable.withText s)
  | edit {t t' : PieceTable} {h : StaleHandle} {e : Edit} {b : Bool} (r : SteadyHistory t) (hf : h.follows = true)
      (ne : ∀ x, e.text = some x → x ≠ []) (hs : t.step h e = .ok (t', b))
      (steady : e = .undo ∨ e = .redo → ∀ s s', Shows t s → Shows t' s' → newlinePositions s' = newlinePositions s) :
      SteadyHistory t'
  | update {t t' : PieceTable} {hs : Nat → StaleHandle} {x : Bytes} (r : SteadyHistory t)
      (hf : ∀ i, (hs i).follows = true) (hd : t.applyDiff hs x = .ok t') : SteadyHistory t'

/-- Only bytes below 128: one byte per character. -/
def Ascii (s : Bytes) : Prop := ∀ b ∈ s, b < 128

/-- Histories over ASCII texts. -/
def AsciiHistory : PieceTable → Prop :=
  Reachable (fun e => ∀ x, e.text = some x → Ascii x) Ascii

/-- The edit cuts the text `s` only between characters and brings well-formed text. -/
def Edit.Clean (s : Bytes) : Edit → Prop
  | .insert o x => IsBoundary s o ∧ IsText x ∧ x ≠ []
  | .append x => IsText x ∧ x ≠ []
  | .delete a n => IsBoundary s a ∧ IsBoundary s (a + n)
  | .replace a n x => IsBoundary s a ∧ IsBoundary s (a + n) ∧ IsText x ∧ x ≠ []
  | .undo => True
  | .redo => True

/-- Histories of clean edits, with undo and redo. -/
inductive CleanHistory : PieceTable → Prop
  | new : CleanHistory PieceTable.new
  | withText {s : Bytes} (hs : s ≠ []) (ok : IsText s) : CleanHistory (PieceTable.withText s)
  | edit {t t' : PieceTable} {s : Bytes} {h : StaleHandle} {e : Edit} {b : Bool} (r : CleanHistory t)
      (sh : Shows t s) (hf : h.follows = true) (ok : e.Clean s) (hs : t.step h e = .ok (t', b)) :
      CleanHistory t'

end Ced.Spec

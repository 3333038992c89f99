import Verif.Spec.Glass

/-! # Lines with selected pieces on the glass of the terminal -/

namespace Ced.Spec
open Glass
variable {T : Type}

/-- The cells the user should see of a piece: reversed when it is selected. -/
def _root_.Ced.LinePart.cells (q : LinePart) : List Cell := q.text.map (⟨·, q.look == .selected⟩)

/-- A text made of these pieces, of printable characters of one cell. -/
structure PiecesText (p : Paint T) (t : T) (qs : List LinePart) : Prop where
  render : p.render t = qs.flatMap LinePart.sent
  plain : p.plain t = qs.flatMap (·.text)
  oneCell : ∀ q ∈ qs, ∀ c ∈ q.text, OneCell c

/-- The cells of a row, on a screen of this width. -/
def rowCells (p : Paint T) (pieces : T → List LinePart) (width : Nat) : Row T → List Cell
  | .header b x y => (rowText p width (.header b x y)).map (⟨·, false⟩)
  | .line t => (pieces t).flatMap LinePart.cells

/-- A row made of pieces that fits. -/
def PiecesRow (p : Paint T) (pieces : T → List LinePart) (width : Nat) : Row T → Prop
  | .header b _ _ => ∀ c ∈ b, c.val < 128 ∧ OneCell c
  | .line t => PiecesText p t (pieces t) ∧ p.textLen t ≤ width ∧ (p.plain t).length ≤ width

/-- How a row looks on a screen of this width: a header, and a line without decoration, is cut; a line made of pieces fits. -/
def RowLook (p : Paint T) (width : Nat) : Row T → List Cell → Prop
  | .header b x y, l => (∀ c ∈ b, c.val < 128 ∧ OneCell c) ∧ l = (rowText p width (.header b x y)).map (⟨·, false⟩)
  | .line t, l => (CleanText p t ∧ l = ((p.plain t).take width).map (⟨·, false⟩)) ∨
      ∃ qs, PiecesText p t qs ∧ p.textLen t ≤ width ∧ (p.plain t).length ≤ width ∧ l = qs.flatMap LinePart.cells

/-- A state all of whose rows have a look on a screen of this width, and the other texts of which are clean. -/
structure FacedState (p : Paint T) (width : Nat) (s : ConnectionState T) : Prop where
  rows : ∀ r ∈ rowsOf s.view, ∃ l, RowLook p width r l
  echo : CleanText p (s.echo.getD p.blank)
  status : ∀ i ∈ s.status, ∀ c ∈ p.plain i.2, OneCell c

/-- A row of the glass looks as this row of the view. -/
def ReadsRow (p : Paint T) (g : Glass) (y : Nat) (r : Row T) : Prop :=
  ∃ l, RowLook p g.width r l ∧ ∀ x < g.width, g.cells y x = (l[x]?).getD .blank

/-- The letters of a row of the glass are those of this text. -/
def ReadsLetters (g : Glass) (y : Nat) (s : Str) : Prop := ∀ x < g.width, (g.cells y x).letter = (s[x]?).getD ' '

/-- The cells the user should see of a line that the server sent: its letters, reversed where a selection covers them. -/
def markedCells (d : DecoratedLine) : List Cell :=
  d.text.zipIdx.map fun bi => ⟨Char.ofNat bi.1.toNat, d.selected.any fun r => decide (r.1 ≤ bi.2 ∧ bi.2 < r.2)⟩

/-- What becomes of a line on its way (`ornament`, serde and `format_text`): pieces that look like the line. -/
def FaithfulLines (o : Ornament T) (p : Paint T) : Prop :=
  ∀ d, ∃ qs : List LinePart, p.render (o.decorated d) = qs.flatMap LinePart.sent ∧ qs.flatMap LinePart.cells = markedCells d

/-- An entry made of these pieces, of printable characters of one cell. -/
structure MatchText (p : Paint T) (t : T) (qs : List EntryPart) : Prop where
  renderMenu : p.renderMenu t = qs.flatMap EntryPart.sent
  plain : p.plain t = qs.flatMap (·.text)
  oneCell : ∀ q ∈ qs, ∀ c ∈ q.text, OneCell c

/-- The cells of pieces from a state of reversed video on, which ends where the first match ends. -/
def matchCells : Bool → List EntryPart → List Cell
  | _, [] => []
  | rev, q :: qs => q.text.map (⟨·, rev⟩) ++ matchCells (rev && !q.matched) qs

/-- How an entry looks on a screen of this width: one without matches is cut, one with matches fits, control sequences included. -/
def EntryLook (p : Paint T) (width : Nat) (selected : Bool) (t : T) (l : List Cell) : Prop :=
  (CleanText p t ∧ l = ((p.plain t).take width).map (⟨·, selected⟩)) ∨
  ∃ qs, MatchText p t qs ∧ (p.renderMenu t).byteLen ≤ width ∧ l = matchCells selected qs

end Ced.Spec

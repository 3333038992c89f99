import Verif.Model.Glass
import Verif.Spec.Tui
import Batteries.Data.List.Basic

/-! # What a user reads on the glass of the terminal -/

namespace Ced.Spec
variable {T : Type}

/-- A character that takes a cell. -/
def OneCell (c : Char) : Prop := ¬ (c.toNat < 32 ∨ (127 ≤ c.toNat ∧ c.toNat < 160))

/-- A text of printable characters and of complete attributes shows these cells, when the text before left reversed video on or
off; what it leaves is the last argument. -/
inductive Displays : Bool → Str → List Cell → Bool → Prop
  | nil {r} : Displays r [] [] r
  | letter {r c s l r'} : OneCell c → Displays r s l r' → Displays r (c :: s) (⟨c, r⟩ :: l) r'
  | on {r s l r'} : Displays true s l r' → Displays r (str!"\x1b[7m" ++ s) l r'
  | off {r s l r'} : Displays false s l r' → Displays r (str!"\x1b[0m" ++ s) l r'
  | other {r ps s l r'} : (∀ c ∈ ps, c.isDigit = true ∨ c = ';') → ps ≠ str!"7" → ps ≠ str!"0" → ps ≠ [] →
      Displays r s l r' → Displays r (str!"\x1b[" ++ ps ++ 'm' :: s) l r'

/-- The cell of some rows at a place, which is empty when there is none. -/
def rowCell (rows : List (List Cell)) (y x : Nat) : Cell := ((rows[y]?.getD [])[x]?).getD .blank

/-- The terminal is ready for a drawing: it has cells, no sequence is half read, and reversed video is off. -/
structure Ready (g : Glass) : Prop where
  width : 0 < g.width
  height : 0 < g.height
  reading : g.reading = .ground
  reversed : g.reversed = false

/-- A row of the glass reads as this text, from the first column on; what is right of it is empty. -/
def Reads (g : Glass) (y : Nat) (s : Str) (reversed : Bool) : Prop :=
  ∀ x < g.width, g.cells y x = if h : x < s.length then ⟨s[x], reversed⟩ else .blank

/-- A text of printable ASCII characters without decoration. -/
structure CleanText (p : Paint T) (t : T) : Prop extends PlainText p t where
  oneCell : ∀ c ∈ p.plain t, OneCell c

/-- A text of printable characters of one cell, without decoration. -/
structure LegibleText (p : Paint T) (t : T) : Prop where
  render : p.render t = p.plain t
  oneCell : ∀ c ∈ p.plain t, OneCell c

/-- What the user should see of a row, on a screen of this width. -/
def rowText (p : Paint T) (width : Nat) : Row T → Str
  | .header b x y => (str!"-[" ++ b ++ str!"][" ++ natStr x ++ str!":" ++ natStr y ++ str!"]" ++ List.replicate width '-').take width
  | .line t => (p.plain t).take width

/-- The status line: the message, and the status at the right; each separator between two items of the status is counted as two
columns, so the line is that much shorter than the screen. -/
def lastLine (p : Paint T) (width : Nat) (s : ConnectionState T) : Str :=
  if echoLen p s < width then
    p.plain (s.echo.getD p.blank) ++ List.replicate (width - echoLen p s - (statusShown p s).byteLen) ' ' ++ statusShown p s
  else p.plain (s.echo.getD p.blank)

/-- A row that is clean. -/
def CleanRow (p : Paint T) : Row T → Prop
  | .header b _ _ => ∀ c ∈ b, c.val < 128 ∧ OneCell c
  | .line t => CleanText p t

/-- A state all of whose texts are clean. -/
structure CleanState (p : Paint T) (s : ConnectionState T) : Prop where
  rows : ∀ r ∈ rowsOf s.view, CleanRow p r
  echo : CleanText p (s.echo.getD p.blank)
  status : ∀ i ∈ s.status, ∀ c ∈ p.plain i.2, OneCell c

end Ced.Spec

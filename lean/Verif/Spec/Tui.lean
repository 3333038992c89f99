import Verif.Model.Tui
import Batteries.Data.List.Basic

/-! # What a screen should show -/

namespace Ced.Spec
variable {T : Type}

/-- A row of the view: the header of a buffer, or a line. -/
inductive Row (T : Type) where
  | header (buffer : Str) (start stop : Nat)
  | line (t : T)

/-- Whether a row is a line. -/
def Row.isLine : Row T → Bool
  | .line _ => true
  | .header _ _ _ => false

/-- All the rows of a view, from top to bottom: each buffer has a header followed by the lines of its lenses. -/
def rowsOf (view : List (RemoteItem T)) : List (Row T) :=
  view.flatMap fun i => .header i.buffer i.start i.stop :: (i.lenses.flatMap (·.lines)).map .line

/-- How a row appears on a screen of this width: a header fills the width exactly; a line appears whole, or cut to the
width. -/
def RowShown (p : Paint T) (width : Nat) : Row T → Str → Prop
  | .header b x y, s => ∃ n, s = str!"-[" ++ b ++ str!"][" ++ natStr x ++ str!":" ++ natStr y ++ str!"]" ++ List.replicate n '-' ∧
      s.byteLen = width
  | .line t, s => if p.textLen t ≤ width then s = p.render t else (∃ rest, p.render t = s ++ rest) ∧ s.byteLen = width

/-- Only ASCII characters. -/
def AsciiStr (s : Str) : Prop := ∀ c ∈ s, c.val < 128

/-- A text without decoration, of ASCII characters: it is drawn as it is. -/
structure PlainText (p : Paint T) (t : T) : Prop where
  ascii : AsciiStr (p.plain t)
  len : p.textLen t = (p.plain t).length
  render : p.render t = p.plain t
  renderMenu : p.renderMenu t = p.plain t

/-- The items of a status, one after the other with a dot in between. -/
def statusShown (p : Paint T) (s : ConnectionState T) : Str :=
  Str.join ['·'] (s.status.map fun i => p.plain i.2)

/-- The width of the message of a state. -/
def echoLen (p : Paint T) (s : ConnectionState T) : Nat := p.textLen (s.echo.getD p.blank)

end Ced.Spec

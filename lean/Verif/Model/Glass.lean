import Verif.Model.Tui

/-!
# What the drawings of the terminal client (core/src/tui.rs) make the terminal show

The client only queues commands and texts; what the user sees is what the terminal makes of them.  This is a model of a terminal
as `crossterm` expects it (the control sequences of ECMA-48 as xterm treats them): a grid of cells, a cursor, and the state of the
reader of control sequences.

Assumed, and simplified: every character that is not a control character takes one cell (no wide and no combining characters);
positions outside are taken for the last row or column; a character written in the last column leaves the cursor there, and the
next one goes to the beginning of the next row (deferred wrap); a line feed in the last row scrolls; the only attribute that is
kept is reversed video; of the control sequences in texts only `m` (attributes, one at a time, as `crossterm` writes them) and `2J`
have an effect, of the control characters only CR, LF, BS, HT and ESC.
-/

namespace Ced

/-- A cell of the screen. -/
structure Cell where
  letter : Char
  reversed : Bool
deriving DecidableEq

/-- An empty cell. -/
def Cell.blank : Cell := ⟨' ', false⟩

/-- The reader of control sequences: outside, after ESC, in the parameters of a sequence. -/
inductive Reading where
  | ground
  | escape
  | params (s : Str)
deriving DecidableEq

/-- The terminal. -/
structure Glass where
  width : Nat
  height : Nat
  /-- by row, then by column -/
  cells : Nat → Nat → Cell
  x : Nat
  y : Nat
  /-- the last column was just written -/
  wrap : Bool
  reversed : Bool
  reading : Reading

namespace Glass

/-- Control characters: C0, DEL, C1. -/
def control (c : Char) : Bool := c.toNat < 32 || (127 ≤ c.toNat && c.toNat < 160)

/-- LF: the next row; in the last one everything moves up. -/
def lineFeed (g : Glass) : Glass :=
  if g.y + 1 = g.height then
    { g with cells := fun y x => if y + 1 < g.height then g.cells (y + 1) x else .blank, wrap := false }
  else { g with y := g.y + 1, wrap := false }

/-- CR. -/
def carriageReturn (g : Glass) : Glass := { g with x := 0, wrap := false }

/-- A cell is written at the cursor. -/
def write (g : Glass) (c : Char) : Glass :=
  { g with cells := fun y x => if y = g.y ∧ x = g.x then ⟨c, g.reversed⟩ else g.cells y x
           x := if g.x + 1 = g.width then g.x else g.x + 1
           wrap := g.x + 1 = g.width }

/-- A character that is not a control character. -/
def put (g : Glass) (c : Char) : Glass := if g.wrap then g.carriageReturn.lineFeed.write c else g.write c

/-- All cells are emptied; the cursor stays. -/
def erase (g : Glass) : Glass := { g with cells := fun _ _ => .blank, wrap := false }

/-- The attributes: 7 is reversed, 0 or nothing is none; the others do not matter here. -/
def reversal (params : Str) (reversed : Bool) : Bool :=
  if params = str!"7" then true else if params = str!"0" ∨ params = [] then false else reversed

/-- A character that is sent to the terminal. -/
def type (g : Glass) (c : Char) : Glass :=
  match g.reading with
  | .ground =>
    if c = '\x1b' then { g with reading := .escape }
    else if c = '\r' then g.carriageReturn
    else if c = '\n' then g.lineFeed
    else if c = '\x08' then { g with x := g.x - 1, wrap := false }
    else if c = '\t' then { g with x := min (g.width - 1) ((g.x / 8 + 1) * 8) }
    else if control c then g
    else g.put c
  | .escape => { g with reading := if c = '[' then .params [] else .ground }
  | .params s =>
    if 64 ≤ c.toNat ∧ c.toNat < 127 then
      let g := { g with reading := .ground }
      if c = 'm' then { g with reversed := reversal s g.reversed }
      else if c = 'J' ∧ s = str!"2" then g.erase
      else g
    else { g with reading := .params (s ++ [c]) }

/-- A text that is sent to the terminal. -/
def print (g : Glass) (s : Str) : Glass := s.foldl type g

/-- `MoveTo`. -/
def moveTo (g : Glass) (x y : Nat) : Glass := { g with x := min x (g.width - 1), y := min y (g.height - 1), wrap := false }

/-- `style(text).reverse()`, as `crossterm` writes it. -/
def reversedText (s : Str) : Str := str!"\x1b[7m" ++ s ++ str!"\x1b[0m"

/-- tui.rs:190, 217, 235-240, 255-260, 277-284, 321-325: the commands that are queued. -/
def draw (g : Glass) : Draw → Glass
  | .clear => g.erase
  | .at x y reversed s => (g.moveTo x y).print (if reversed then reversedText s else s)
  | .clearRest => { g with cells := fun y x => if y = g.y ∧ g.x ≤ x then .blank else g.cells y x, wrap := false }

/-- Drawings, one after the other. -/
def drawAll (g : Glass) (ds : List Draw) : Glass := ds.foldl draw g

end Glass

/-- The faces that `format_text` (tui.rs:62-69) tells apart: all the others, `Error`, `Selection`. -/
inductive Look where
  | plain
  | red
  | selected
deriving DecidableEq

/-- `ornament::TextFragment<Face>`, as `format_text` reads it (tui.rs:62-63). -/
structure LinePart where
  text : Str
  look : Look

/-- tui.rs:62-69 `format_text`, with the attributes as `crossterm` writes them. -/
def LinePart.sent (q : LinePart) : Str :=
  match q.look with
  | .plain => q.text
  | .red => str!"\x1b[38;5;9m" ++ q.text ++ str!"\x1b[39m"
  | .selected => str!"\x1b[7m" ++ q.text ++ str!"\x1b[0m"

/-- `ornament::TextFragment<Face>` of an entry of a menu: whether its face is `Match` (tui.rs:266-269). -/
structure EntryPart where
  text : Str
  matched : Bool

/-- tui.rs:266-269: a match is underlined; the attributes as `crossterm` writes them. -/
def EntryPart.sent (q : EntryPart) : Str := if q.matched then str!"\x1b[4m" ++ q.text ++ str!"\x1b[0m" else q.text

end Ced

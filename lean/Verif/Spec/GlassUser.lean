import Verif.Props.Tui
import Verif.Spec.GlassFaces
import Verif.Spec.TuiMenu
import Verif.Spec.Agree

/-! # A session at a terminal whose texts are printable -/

namespace Ced.Spec
open Tui Props
variable {T : Type}

/-- The texts of a menu are printable, and the entries with matches fit on a screen of this width. -/
def LegibleMenu (p : Paint T) (width : Nat) (m : RemoteMenu T) : Prop :=
  (∀ c ∈ m.title ++ m.search, c.val < 128 ∧ OneCell c) ∧ ∀ e ∈ m.entries, ∀ rev, ∃ l, EntryLook p width rev e.text l

/-- The texts of the state, and of an open menu, are printable, and its message fits on the screen. -/
structure Legible (p : Paint T) (a : App T) : Prop where
  state : FacedState p a.term.width a.term.connection.state
  echo : echoLen p a.term.connection.state ≤ a.term.width
  menu : ∀ m, a.term.connection.state.menu = some m → LegibleMenu p a.term.width m

/-- A hint that has a place on the screen, none of whose lines is longer than the first one. -/
structure FittingHint (p : Paint T) (width height : Nat) (hint : List T) : Prop where
  widthOk : width ≤ 65535
  heightOk : height ≤ 65535
  fits : hint.length ≤ height
  first : ∃ first rest, hint = first :: rest ∧ 0 < (p.plain first).length ∧ (p.plain first).length ≤ width ∧
    ∀ l ∈ hint, LegibleText p l ∧ (p.plain l).length ≤ (p.plain first).length

/-- A step taken in turn (C103); a new size of the screen is one, and a hint and a menu that are drawn now fit. -/
def Unhindered (o : Ornament T) (p : Paint T) (parse : Str → Option Json) (a : App T) (s : Tui.Step) : Prop :=
  InTurn o parse a s ∧ match s with
  | .treat => (∀ h q, a.queue = .drawHint h :: q → FittingHint p a.term.width a.term.height h) ∧
      ∀ m q, a.queue = .drawMenu m :: q → LegibleMenu p a.term.width m
  | .size w h => 0 < w ∧ 0 < h ∧ h ≤ 65535
  | _ => True

/-- All the steps are of this kind, and all the states are legible. -/
def LegibleRun (o : Ornament T) (p : Paint T) (parse : Str → Option Json) (errText : Str → Str) : App T → List Tui.Step → Prop
  | a, [] => Legible p a
  | a, s :: ss => Legible p a ∧ Unhindered o p parse a s ∧
      ∀ a' ds, a.step o p parse errText s = .ok (a', ds) → LegibleRun o p parse errText a' ss

/-- Whether a hint is left on the screen, after a line: a view, a menu or a message replaces it. -/
def leftAfter (o : Ornament T) (parse : Str → Option Json) (left : Bool) (l : Str) : Bool :=
  match ((Connection.new : Connection T).receive o parse l).2 with
  | .hint _ => true
  | .view _ => false
  | .echo _ => false
  | .menu _ => false
  | _ => left

/-- A hint was received after the last view, menu or message. -/
def hintLeft (o : Ornament T) (parse : Str → Option Json) (lines : List Str) : Bool := lines.foldl (leftAfter o parse) false

/-- A run of the client in front of this glass, up to this state and glass.  When the size of the screen changes, the terminal may leave
anything on it (what is drawn between the change and the moment when the client is told about it does not matter for that). -/
def GlassRun (o : Ornament T) (p : Paint T) (parse : Str → Option Json) (errText : Str → Str) :
    App T → Glass → List Tui.Step → App T → Glass → Prop
  | a, g, [], a', g' => a' = a ∧ g' = g
  | a, g, s :: ss, a', g' => ∃ a1 ds g1, a.step o p parse errText s = .ok (a1, ds) ∧
      (match s with
        | .size w h => if w = g.width ∧ h = g.height then g1 = g else Ready g1 ∧ g1.width = w ∧ g1.height = h
        | _ => g1 = g.drawAll ds) ∧
      GlassRun o p parse errText a1 g1 ss a' g'

/-- Client `c` is a user in front of this glass: from the moment of connecting things went as in C83 until the server was in the state
`s'`; everything was delivered, read and treated by the terminal client, which is in the state `a`. -/
structure Seated (R : Rules) (env : Env) (o : Ornament T) (p : Paint T) (parse : Str → Option Json) (errText : Str → Str) (c : Nat)
    (s' : Server LuaState) (a : App T) (g : Glass) : Prop where
  since : ∃ s steps, Connected R env c s ∧ UserSchedule R env.seg c s steps ∧ s.loop steps = .ok (s', none)
  fit : ∀ n ∈ notesTo c s'.written, Fits n
  all : s'.delivered = s'.editor.core.out.length
  session : ∃ width height files t g0 ts, Term.new width height files = .ok t ∧ Ready g0 ∧ g0.width = width ∧ g0.height = height ∧
    height ≤ 65535 ∧ LegibleRun o p parse errText ⟨t, []⟩ ts ∧ GlassRun o p parse errText ⟨t, []⟩ g0 ts a g ∧
    linesIn ts = readLines ((wiresTo c s'.written).flatMap fun w => frame (w.encode o)) ∧ hintLeft o parse (linesIn ts) = false
  treated : a.queue = []

end Ced.Spec

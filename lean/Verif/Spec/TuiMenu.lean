import Verif.Model.Tui

/-!
# What is on the screen of the terminal, with menus

The drawing of a view and the drawing of a menu begin with clearing the screen; everything else is drawn over what is there.
-/

namespace Ced.Spec
open Tui
variable {T : Type}

/-- What is on the screen after some drawings is this picture, perhaps with a status line or hints drawn over it: it was drawn, and
the screen was not cleared since. -/
def OnScreen (picture ds : List Draw) : Prop := ∃ before after, ds = before ++ picture ++ after ∧ Draw.clear ∉ after

/-- The keys that close a menu or move in it: escape, enter, up, down. -/
def Decides (k : Pressed) : Prop := k.code = .esc ∨ k.code = .enter ∨ k.code = .up ∨ k.code = .down

/-- The user and the server do not get in each other's way: when a menu arrives, no key that would close a menu or move in one is
waiting to be treated; and while a menu is open no view and no message arrives. -/
def InTurn (o : Ornament T) (parse : Str → Option Json) (a : App T) : Tui.Step → Prop
  | .line l =>
    match (a.term.connection.receive o parse l).2 with
    | .menu _ => ∀ k, .input k ∈ a.queue → ¬ Decides k
    | .view _ => a.term.connection.state.menu = none
    | .echo _ => a.term.connection.state.menu = none
    | _ => True
  | _ => True

/-- All the steps are taken in turn. -/
def AllInTurn (o : Ornament T) (p : Paint T) (parse : Str → Option Json) (errText : Str → Str) : App T → List Tui.Step → Prop
  | _, [] => True
  | a, s :: ss => InTurn o parse a s ∧ ∀ a' ds, a.step o p parse errText s = .ok (a', ds) → AllInTurn o p parse errText a' ss

/-- The screen agrees with what the keys act upon: if a menu is open it is on the screen, with the entry highlighted that is chosen
by enter; if none is open the present view is on the screen, or nothing was drawn because nothing has been received. -/
def ScreenAgrees (p : Paint T) (t : Term T) (ds : List Draw) : Prop :=
  match t.connection.state.menu with
  | some m => ∃ picture, drawMenu p t.width t.height m = .ok picture ∧ OnScreen picture ds
  | none => (Draw.clear ∉ ds ∧ t.connection.state.view = []) ∨
      ∃ s picture, s.view = t.connection.state.view ∧ drawView p t.width t.height s = .ok picture ∧ OnScreen picture ds

end Ced.Spec

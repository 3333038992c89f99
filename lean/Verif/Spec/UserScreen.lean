import Verif.Spec.SafeServer
import Verif.Spec.Screen

/-! # What leaves the screen of a user up to date (C83) -/

namespace Ced.Spec
open Props

/-- A request of the client `d`, other than a choice in a menu, that does not leave the client `c` with an outdated screen.
`C69_exceptions` shows why additions to views, removals and deletions of another client are excepted; a script can do any of
these. -/
def Considerate (c d : Nat) : Call → Prop
  | .exec _ => False
  | .viewAdd _ => d = c
  | .viewRemove _ => d = c
  | .keys ks => d = c ∨ ∀ k ∈ ks, k.display ≠ str!"d"
  | _ => True

/-- The same, where a choice in a menu counts as the request it stands for. -/
def ConsiderateCall (c d : Nat) : Call → Prop
  | .menuSelect command choice => ∀ call, selectCall command choice = some call → Considerate c d call
  | call => Considerate c d call

/-- An event that does not leave the client `c` with an outdated screen: `c` stays; when it is alone it may ask for anything;
otherwise the requests are considerate. -/
def ConsiderateEvent (env : EditorEnv LuaState) (c : Nat) (s : Server LuaState) : ServerEvent → Prop
  | .join _ => True
  | .leave d => d ≠ c
  | .message d line => s.index = [c] ∨
      ∀ q call, (env.parse line).bind Request.decode = some q → Asks q call → ConsiderateCall c d call

/-- A schedule of the server of such events, in which the connection of `c` works; files, clock and scripts may change from
one event to the next, the segmentation of text into characters does not. -/
def UserSchedule (R : Rules) (seg : Segmentation) (c : Nat) (s : Server LuaState) : List (Server.Step LuaState) → Prop
  | [] => True
  | .deliver broken :: steps => c ∉ broken ∧ UserSchedule R seg c (s.deliver broken) steps
  | .event env writable ev :: steps => writable = true ∧ env.core.seg = seg ∧
      (∃ eng, SafeEnv R eng env ∧ SafeEvent R eng env s ev) ∧ ConsiderateEvent env c s ev ∧
      ∀ s', s.turn env writable ev = .ok (s', false) → UserSchedule R seg c s' steps

/-- A buffer of a view shows the text of the buffer: all its lines, from the first one, each followed by a space where the
end of the line can be selected.  A carriage return right before a newline is not shown. -/
def ShowsBuffer (w : World) (name : Str) (item : ViewParamsItem) : Prop :=
  item.buffer = name ∧ ∃ b s, w.buffers.get name = some b ∧ Shows b.content s ∧
    item.start = 1 ∧ item.stop = (Spec.lines s).length ∧ item.lenses ≠ [] ∧
    ∀ l ∈ item.lenses, l.firstLineNum = 1 ∧ l.lines.map (·.text) = (cleanLines s).map (· ++ [32])

/-- The same for a text of any characters: the lines that are drawn are those of `text()`, which are as many as the lines of
the buffer; and a line of ASCII characters is drawn as it is, whatever the other lines are.  If no edit ever cut a character in
two, `text()` is the text itself (see C09). -/
def ShowsText (w : World) (name : Str) (item : ViewParamsItem) : Prop :=
  item.buffer = name ∧ ∃ b s t, w.buffers.get name = some b ∧ Shows b.content s ∧ b.content.text = .ok t ∧
    (CleanHistory b.content → t = s) ∧ (Spec.lines t).length = (Spec.lines s).length ∧
    (∀ (i : Nat) (line : Bytes), (Spec.lines s)[i]? = some line → Ascii line → (Spec.lines t)[i]? = some line) ∧
    item.start = 1 ∧ item.stop = (Spec.lines s).length ∧ item.lenses ≠ [] ∧
    ∀ l ∈ item.lenses, l.firstLineNum = 1 ∧ l.lines.map (·.text) = (cleanLines t).map (· ++ [32])

end Ced.Spec

import Verif.Model.Server
import Verif.Spec.Requests

/-! # What the connections do -/

namespace Ced.Spec

/-- The request asks to quit: directly, or by the entry of the menu of commands. -/
def IsQuit (q : Request) : Prop :=
  q.method = str!"quit" ∨
  (q.method = str!"menu-select" ∧ Params.get Params.menuSelect q = .ok (some ([], str!"quit")))

/-- The line asks to quit. -/
def QuitLine {L : Type} (env : EditorEnv L) (line : Str) : Prop :=
  ∃ q, (env.parse line).bind Request.decode = some q ∧ IsQuit q

/-- The connections open after these events, when those of `l` are open before. -/
def openFrom (l : List Nat) (evs : List ServerEvent) : List Nat :=
  evs.foldl (fun l ev => match ev with
    | .join c => l ++ [c]
    | .leave c => l.filter (· ≠ c)
    | .message _ _ => l) l

/-- The connections open after these events, the oldest first. -/
def openAfter (evs : List ServerEvent) : List Nat := openFrom [] evs

/-- The events of a schedule. -/
def eventsOf {L : Type} (steps : List (Server.Step L)) : List ServerEvent :=
  steps.filterMap fun s => match s with
    | .event _ _ ev => some ev
    | .deliver _ => none

/-- Nobody asks to quit. -/
def NoQuit {L : Type} (steps : List (Server.Step L)) : Prop :=
  ∀ env wr c line, Server.Step.event env wr (.message c line) ∈ steps → ¬ QuitLine env line

/-- The lines sent by a client, with the identifier of the request each of them holds (`null` if it holds none). -/
def requestIds {L : Type} (c : Nat) (steps : List (Server.Step L)) : List RpcId :=
  steps.filterMap fun s => match s with
    | .event env _ (.message c' line) =>
      if c' = c then some (match (env.parse line).bind Request.decode with | some q => q.id | none => .null) else none
    | _ => none

/-- The identifiers of the responses written to a client. -/
def responseIds (c : Nat) (written : List (Nat × Wire)) : List RpcId :=
  written.filterMap fun x => match x with
    | (c', .response r) => if c' = c then some r.id else none
    | _ => none

/-- A notification is addressed to a client: it is for everybody, or names it. -/
def Addressed (b : Broadcast) (c : Nat) : Prop := b.only = none ∨ ∃ cs, b.only = some cs ∧ c ∈ cs

/-- Each menu lists what its source gives, at some time, or nothing when it has not been asked for. -/
def MenusOk (menus : Assoc Str MenuState) : Prop :=
  ∀ key m0, defaultCommands.get key = some m0 →
    ∃ m, menus.get key = some m ∧ m.command = m0.command ∧ m.title = m0.title ∧ m.source = m0.source ∧
      (m.entries = [] ∨ ∃ info, m = m0.populate info)

/-- There are no other menus. -/
def NoOtherMenus (menus : Assoc Str MenuState) : Prop :=
  ∀ key, defaultCommands.get key = none → menus.get key = none

end Ced.Spec

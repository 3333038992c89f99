import Verif.Model.Relay
import Verif.Spec.JsonText

/-! # What a relay must do -/

namespace Ced.Spec

/-- The line holds a request. -/
def IsRequest (parse : Str → Option Json) (line : Str) : Prop := ∃ q, (parse line).bind Request.decode = some q

/-- The two lines hold the same request: same version, identifier, method and parameters. -/
def SameRequest (parse : Str → Option Json) (a b : Str) : Prop :=
  ∃ q, (parse a).bind Request.decode = some q ∧ (parse b).bind Request.decode = some q

/-- The lines given to a relay, in order. -/
def inputLines (steps : List RelayStep) : List Str :=
  steps.filterMap fun s => match s with
    | .input (some l) => some l
    | _ => none

/-- The lines the session sent to it, in order. -/
def sessionLines (steps : List RelayStep) : List Str :=
  steps.filterMap fun s => match s with
    | .event (some l) => some l
    | _ => none

/-- The text is the texts of these values, one immediately after the other, as a reader of successive values finds
them. -/
inductive Stream : Str → List Json → Prop
  | done : Stream [] []
  | value {s rest : Str} {j : Json} {l : List Json} (f : Nat) (h : JsonText.value f s = some (j, rest)) (hs : Stream rest l) :
      Stream s (j :: l)

end Ced.Spec

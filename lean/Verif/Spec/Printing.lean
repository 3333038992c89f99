import Verif.Model.Printing

/-! # What a standalone session should print -/

namespace Ced.Spec
variable {L : Type}

/-- The responses among what is printed, in order. -/
def responsesIn (out : List Wire) : List Response :=
  out.filterMap fun | .response r => some r | .note _ => none

/-- The notifications among what is printed, in order. -/
def notesIn (out : List Wire) : List Note :=
  out.filterMap fun | .response _ => none | .note n => some n

/-- What the only client is to be told. -/
def forClient (bs : List Broadcast) : List Note := (bs.filter (·.shouldNotify 1)).map (·.note)

/-- The editor treats the lines, one after the other, and gives a response to each. -/
def answered (e : Ced.Editor L) : List (EditorEnv L × Str) → R (Ced.Editor L × List Response)
  | [] => .ok (e, [])
  | (env, l) :: ls => do
    let (e, r) ← e.handle env 1 l
    let (e, rs) ← answered e ls
    return (e, r :: rs)

end Ced.Spec

import Verif.Model.Flow

/-! # What a client is sent, and when the server waits -/

namespace Ced.Spec

/-- All the bytes the server has decided to write to a client. -/
def sentTo {L T : Type} (o : Ornament T) (s : Server L) (c : Nat) : Bytes :=
  ((s.written.filter fun x => x.1 = c).map fun x => x.2.bytes o).flatten

/-- The server waits for client `c`: it has bytes to write to it and its connection, which is open, is full. -/
def WaitsFor {L : Type} (room : Nat) (f : Flow L) (c : Nat) : Prop :=
  c ∉ f.closed ∧ room ≤ (f.way c).length ∧ ∃ note b bs rest, f.todo = ⟨c, note, b :: bs⟩ :: rest

/-- The client neither reads nor hangs up. -/
def Idle {L : Type} (c : Nat) (as : List (Flow.Act L)) : Prop :=
  (∀ n, Flow.Act.read c n ∉ as) ∧ Flow.Act.hangUp c ∉ as

/-- The lines of a client that the loop has taken. -/
def linesTaken {L : Type} (c : Nat) (as : List (Flow.Act L)) : Nat :=
  as.countP fun a => match a with
    | .event _ (.message d _) => d = c
    | _ => false

/-- The steps of the server alone. -/
def stepsOf {L : Type} (as : List (Flow.Act L)) : List (Server.Step L) :=
  as.filterMap fun
    | .event env ev => some (.event env true ev)
    | .deliver => some (.deliver [])
    | _ => none

end Ced.Spec

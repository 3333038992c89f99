import Verif.Spec.Flow
import Verif.Spec.Reader

/-! # A conversation between clients and the server, in bytes both ways -/

namespace Ced.Spec

/-- The events the loop of the server has taken, in order. -/
def takenEvents {L : Type} (as : List (Flow.Act L)) : List ServerEvent :=
  as.filterMap fun | .event _ ev => some ev | _ => none

/-- The lines of a client that the loop of the server has taken, each with what the editor met then. -/
def takenLines {L : Type} (c : Nat) (as : List (Flow.Act L)) : List (EditorEnv L × Str) :=
  as.filterMap fun
    | .event env (.message d line) => if d = c then some (env, line) else none
    | _ => none

/-- The messages the server has decided to write to a client, in order. -/
def messagesTo {L : Type} (s : Server L) (c : Nat) : List Wire := (s.written.filter fun x => x.1 = c).map Prod.snd

/-- The responses among messages. -/
def repliesIn (ws : List Wire) : List Response := ws.filterMap fun | .response r => some r | .note _ => none

/-- The bytes of all connections arrive somehow (`steps`), and give the events `evs`; the loop of the server takes them in that
order, as far as it comes, and writes into connections with room for `room` bytes; the clients read when they like. -/
structure Conversation {L T : Type} (o : Ornament T) (room : Nat) (e : Ced.Editor L) (steps : List NetworkStep) (evs : List ServerEvent)
    (as : List (Flow.Act L)) (f : Flow L) : Prop where
  heard : ∃ n, ByteNetwork.start.run steps = some (n, evs)
  flow : Flow.Run o room (Flow.start e) as f
  order : takenEvents as <+: evs

end Ced.Spec

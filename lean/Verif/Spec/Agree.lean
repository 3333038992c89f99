import Verif.Spec.UserScreen
import Verif.Spec.Batch
import Verif.Spec.Connection
import Verif.Props.Server

/-! # Two users see the same (C106) -/

namespace Ced.Spec
open Props
variable {T : Type}

/-- A user `c` has just been connected to the server, and the screen that it is about to get is up to date (see `C83_first`,
`C83_joins`). -/
structure Connected (R : Rules) (env : Env) (c : Nat) (s : Server LuaState) : Prop where
  safe : SafeServer R s
  run : ServerRun s
  there : c ∈ s.index
  current : UpToDate env s.editor.core c
  silent : notesTo c s.written = []
  queue : s.delivered ≤ s.editor.core.out.length
  coming : (screen c (s.editor.core.out.drop s.delivered)).isSome = true

/-- From that moment on things went as in C83 until the server was in the state `s'`; everything was delivered and read, and the client
of the user is in the state `conn`. -/
structure Watching (R : Rules) (env : Env) (o : Ornament T) (parse : Str → Option Json) (c : Nat) (s' : Server LuaState)
    (conn : Connection T) : Prop where
  since : ∃ s steps, Connected R env c s ∧ UserSchedule R env.seg c s steps ∧ s.loop steps = .ok (s', none)
  fit : ∀ n ∈ notesTo c s'.written, Fits n
  read : ∃ cs, linesOf cs = readLines ((wiresTo c s'.written).flatMap fun w => frame (w.encode o)) ∧
    Connection.new.run o parse cs = .ok conn
  all : s'.delivered = s'.editor.core.out.length

/-- Two buffers on screens show the same lines, up to their decoration; `plain` is the text of a decorated line. -/
def SameLines (plain : T → Bytes) (i j : RemoteItem T) : Prop :=
  i.start = j.start ∧ i.stop = j.stop ∧ i.lenses ≠ [] ∧ j.lenses ≠ [] ∧
  ∀ l ∈ i.lenses, ∀ m ∈ j.lenses, l.firstLineNum = m.firstLineNum ∧ l.lines.map plain = m.lines.map plain

end Ced.Spec

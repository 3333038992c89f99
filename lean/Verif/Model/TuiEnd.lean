import Verif.Model.Tui

/-!
# Model of the end of the terminal program, and of the requests that it writes

`Term::start` (tui.rs:103-175) runs four tasks on one thread: the one that reads the keys, the one that reads the lines of the
server, the one that writes the requests (client.rs:31-37) and the main loop.  When the main loop is left the others are dropped.
A panic in any of them ends the program.
-/

namespace Ced.Tui
variable {T : Type}

/-- The running program: the terminal with the events that wait, whether the channel of events was closed, whether the main loop
was left, and the requests that were taken from their channel and written. -/
structure Running (T : Type) where
  app : App T
  closed : Bool
  ended : Bool
  taken : Nat
  written : List Request

/-- A step of one of the tasks. -/
inductive RunStep where
  /-- the three tasks of `App` -/
  | task (s : Step)
  /-- tui.rs:153-154: there are no more lines: the connection is lost -/
  | lost
  /-- client.rs:39-42: a line of the server is not UTF-8, or cannot be read -/
  | broken
  /-- client.rs:31-37: the next request is written; whether this succeeds, which nobody looks at -/
  | write (ok : Bool)

/-- The program at its beginning. -/
def Running.start (t : Term T) : Running T := ⟨⟨t, []⟩, false, false, 0, []⟩

/-- One step.  tui.rs:158-173: the main loop is left when it is told to, or when there are no more events and the channel is closed;
tui.rs:117-129: an event that comes when the channel is closed is an `expect` panic. -/
def Running.step (o : Ornament T) (p : Paint T) (parse : Str → Option Json) (errText : Str → Str) (r : Running T) (s : RunStep) :
    R (Running T × List Draw) :=
  if r.ended then .ok (r, [])
  else match s with
    | .task .treat =>
      match r.app.queue with
      | [] => .ok ({ r with ended := r.closed }, [])
      | _ :: _ => do
        let (a, ds) ← r.app.step o p parse errText .treat
        return ({ r with app := a, ended := a.term.exitPending }, ds)
    | .task (.line l) =>
      if r.closed then .ok (r, [])
      else do
        let (a, ds) ← r.app.step o p parse errText (.line l)
        return ({ r with app := a }, ds)
    | .task s =>
      if r.closed then .error .unwrap
      else do
        let (a, ds) ← r.app.step o p parse errText s
        return ({ r with app := a }, ds)
    | .lost => .ok ({ r with closed := true }, [])
    | .broken => if r.closed then .ok (r, []) else .error .unwrap
    | .write ok =>
      match r.app.term.connection.sent[r.taken]? with
      | none => .ok (r, [])
      | some q => .ok ({ r with taken := r.taken + 1, written := if ok then r.written ++ [q] else r.written }, [])

/-- Steps, one after the other; the drawings are kept. -/
def Running.run (o : Ornament T) (p : Paint T) (parse : Str → Option Json) (errText : Str → Str) :
    Running T → List RunStep → R (Running T × List Draw)
  | r, [] => .ok (r, [])
  | r, s :: ss => do
    let (r, ds) ← r.step o p parse errText s
    let (r, ds') ← Running.run o p parse errText r ss
    return (r, ds ++ ds')

end Ced.Tui

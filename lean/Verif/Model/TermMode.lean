import Verif.Model.TuiEnd

/-!
# Model of what the terminal program does to the terminal: `Term::new`, `Term::start`, `Drop for Term` (core/src/tui.rs), `logline`

The device is the user's terminal: its mode, whether its alternate screen is shown, whether its cursor is hidden, and what was
written on each of its two screens.  What can fail is a parameter: opening `log.txt`, asking for the size, changing the mode,
writing to the device, connecting.  Assumed: the standard error is the device too; a panic in a task of the executor goes through
`block_on` and unwinds the main thread, so the `Term` is dropped (there is no `panic = "abort"` in Cargo.toml); writing a line of
`log.txt`, once it is open, does nothing else.  Not modelled: mouse events (they are logged and ignored), signals.
-/

namespace Ced.Tui
variable {T : Type}

/-- What is written on a screen: a drawing, or the text of a panic or of an error. -/
inductive Shown where
  | draw (d : Draw)
  | complaint
deriving DecidableEq

/-- The user's terminal. -/
structure Device where
  raw : Bool
  alternate : Bool
  hidden : Bool
  main : List Shown
  alt : List Shown
deriving DecidableEq

/-- Writing on the screen that is shown. -/
def Device.show (d : Device) (l : List Shown) : Device :=
  if d.alternate then { d with alt := d.alt ++ l } else { d with main := d.main ++ l }

/-- The commands of crossterm for the screens and the cursor. -/
inductive ScreenCommand where
  | enter
  | leave
  | hide
  | show
deriving DecidableEq

/-- Their effect (the alternate screen is empty when it is entered). -/
def ScreenCommand.run (d : Device) : ScreenCommand → Device
  | .enter => { d with alternate := true, alt := [] }
  | .leave => { d with alternate := false }
  | .hide => { d with hidden := true }
  | .show => { d with hidden := false }

/-- How writing some commands ends: all have their effect, or it fails after some of them. -/
inductive Wrote where
  | all
  | cut (n : Nat)
deriving DecidableEq

/-- What may fail at the beginning and at the end. -/
structure Chances where
  /-- the first line of `log.txt` (tui.rs:90) -/
  log : Bool
  /-- tui.rs:94: the size of the terminal -/
  size : Option (Nat × Nat)
  /-- the second line of `log.txt` (tui.rs:96) -/
  log2 : Bool
  /-- tui.rs:104: entering the raw mode -/
  raw : Bool
  /-- tui.rs:105: entering the alternate screen, hiding the cursor -/
  enter : Wrote
  /-- tui.rs:135, connection.rs:155: connecting -/
  connected : Bool
  /-- tui.rs:445: leaving the raw mode -/
  unraw : Bool
  /-- tui.rs:446: leaving the alternate screen, showing the cursor -/
  leave : Wrote

/-- What may fail in a step: the line of `log.txt`, or the writing of the drawings, after some of them. -/
inductive Fault where
  | none
  | log
  | draw (n : Nat)
deriving DecidableEq

/-- How it ends.  `aborted`: a panic while another one unwinds. -/
inductive Outcome where
  | running
  | ended
  | crashed
  | aborted
deriving DecidableEq

/-- tui.rs:117, 141, 153, 159: the steps that write a line to `log.txt`, opening it each time (tui.rs:17-29). -/
def logs (r : Running T) : RunStep → Bool
  | .task .treat => !r.app.queue.isEmpty
  | .task (.line _) => !r.closed
  | .task _ => true
  | .lost => !r.closed
  | .broken => false
  | .write _ => false

/-- tui.rs:107-174: the tasks run, and their drawings are written on the device; a failure of `log.txt` or of a write is an
`expect` panic. -/
def play (o : Ornament T) (p : Paint T) (parse : Str → Option Json) (errText : Str → Str) :
    Running T → Device → List (RunStep × Fault) → Device × Outcome
  | r, d, [] => (d, if r.ended then .ended else .running)
  | r, d, (s, f) :: rest =>
    if r.ended then (d, .ended)
    else if f = .log ∧ logs r s = true then (d.show [.complaint], .crashed)
    else match r.step o p parse errText s with
      | .error _ => (d.show [.complaint], .crashed)
      | .ok (r', ds) =>
        match f with
        | .draw n =>
          if ds = [] then play o p parse errText r' d rest
          else ((d.show ((ds.take n).map .draw)).show [.complaint], .crashed)
        | _ => play o p parse errText r' (d.show (ds.map .draw)) rest

/-- tui.rs:443-449 `Drop for Term`, at the end or while a panic unwinds; `prior` is the mode to go back to, when the raw mode was
entered by the program (otherwise `disable_raw_mode` does nothing). -/
def finish (c : Chances) (prior : Option Bool) (d : Device) (crashing : Bool) : Device × Outcome :=
  let left (d : Device) : Device × Outcome :=
    (match c.leave with
      | .all => [ScreenCommand.leave, .show].foldl ScreenCommand.run d
      | .cut n => (([ScreenCommand.leave, .show].take n).foldl ScreenCommand.run d).show [.complaint],
     if crashing then .crashed else .ended)
  match prior with
  | none => left d
  | some m =>
    if c.unraw then left { d with raw := m }
    else (d.show [.complaint], if crashing then .aborted else .crashed)

/-- tui.rs:89-175, 443-449, bin/ced.rs:131-137: the whole program, after the session is there. -/
def program (o : Ornament T) (p : Paint T) (parse : Str → Option Json) (errText : Str → Str) (c : Chances) (d : Device)
    (files : List Str) (steps : List (RunStep × Fault)) : Device × Outcome :=
  if c.log = false then (d.show [.complaint], .crashed)
  else match c.size with
    | none => (d.show [.complaint], .crashed)
    | some (w, h) =>
      if c.log2 = false then finish c none (d.show [.complaint]) true
      else match (Term.new w h files : R (Term T)) with
        | .error _ => finish c none (d.show [.complaint]) true
        | .ok t =>
          if c.raw = false then finish c none (d.show [.complaint]) true
          else match c.enter with
            | .cut n =>
              finish c (some d.raw)
                ((([ScreenCommand.enter, .hide].take n).foldl ScreenCommand.run { d with raw := true }).show [.complaint]) true
            | .all =>
              let d1 := [ScreenCommand.enter, .hide].foldl ScreenCommand.run { d with raw := true }
              if c.connected = false then finish c (some d.raw) (d1.show [.complaint]) true
              else match play o p parse errText (Running.start t) d1 steps with
                | (d2, .running) => (d2, .running)
                | (d2, .ended) => finish c (some d.raw) d2 false
                | (d2, _) => finish c (some d.raw) d2 true

end Ced.Tui

import Verif.Model.Printing

/-!
# Model of `core/src/clients.rs:27-46`: the two threads of the standalone mode when nobody reads the output any more

The standard output is a pipe whose reader may go away at any moment.  From then on every `println!` fails and panics (the
standard library ignores SIGPIPE, and the standard output is flushed at the end of each line).  In the printing thread the panic
ends that thread alone, and with it the receiving end of the channel: what is in the channel is lost, and a later `send` fails,
which is a panic of the main thread (core.rs:37, `expect("broadcast message")`).  A panic of the main thread ends the process.
-/

namespace Ced

/-- The two threads (`Model/Printing`); whether somebody reads the output; whether the printing thread lives; and whether the
main thread has panicked. -/
structure Piped (L : Type) where
  solo : Solo L
  reader : Bool
  printer : Bool
  crashed : Bool

namespace Piped
variable {L : Type}

/-- clients.rs:27-34, as in `Solo.start`; somebody reads the output. -/
def start (e : Editor L) (input : List (EditorEnv L × Str)) (last : EditorEnv L) : Piped L :=
  { solo := Solo.start e input last, reader := true, printer := true, crashed := false }

/-- One step of one of the threads, or of the reader. -/
inductive Step : Piped L → Piped L → Prop
  /-- somebody reads the output: all is as in `Model/Printing` -/
  | runs {p : Piped L} {t : Solo L} : p.reader = true → Solo.Step p.solo t → Step p { p with solo := t }
  /-- the reader goes away -/
  | closes {p : Piped L} : p.reader = true → p.solo.ended = false → Step p { p with reader := false }
  /-- clients.rs:36-38: the next line is treated, although nobody reads -/
  | line {p : Piped L} {env : EditorEnv L} {l : Str} {ls : List (EditorEnv L × Str)} {e : Editor L} {r : Response} :
      p.reader = false → p.crashed = false →
      p.solo.sends = [] → p.solo.reply = none → p.solo.input = (env, l) :: ls → p.solo.editor.handle env Standalone.client l = .ok (e, r) →
      Step p { p with solo := { p.solo with editor := e, input := ls, sends := e.core.out.drop p.solo.editor.core.out.length, reply := some r } }
  /-- core.rs:37: a notification is sent to the printing thread, which does not know yet -/
  | send {p : Piped L} {b : Broadcast} {bs : List Broadcast} :
      p.reader = false → p.crashed = false → p.printer = true →
      p.solo.sends = b :: bs → p.solo.chan.length < Standalone.capacity →
      Step p { p with solo := { p.solo with sends := bs, chan := p.solo.chan ++ [b] } }
  /-- core.rs:37: a notification cannot be sent, for the printing thread is dead -/
  | unsent {p : Piped L} {b : Broadcast} {bs : List Broadcast} :
      p.reader = false → p.crashed = false → p.printer = false → p.solo.sends = b :: bs → Step p { p with crashed := true }
  /-- clients.rs:39: the response cannot be printed -/
  | unanswered {p : Piped L} {r : Response} :
      p.reader = false → p.crashed = false → p.solo.sends = [] → p.solo.reply = some r → Step p { p with crashed := true }
  /-- clients.rs:45: the end of the input -/
  | leave {p : Piped L} {e : Editor L} :
      p.reader = false → p.crashed = false →
      p.solo.sends = [] → p.solo.reply = none → p.solo.input = [] → p.solo.left = false →
      p.solo.editor.removeClient p.solo.last Standalone.client = .ok e →
      Step p { p with solo := { p.solo with editor := e, left := true, sends := e.core.out.drop p.solo.editor.core.out.length } }
  /-- clients.rs:46: the main thread ends, and the process with it -/
  | exit {p : Piped L} :
      p.reader = false → p.crashed = false → p.solo.left = true → p.solo.sends = [] → p.solo.ended = false →
      Step p { p with solo := { p.solo with ended := true } }
  /-- clients.rs:28: the printing thread receives a notification -/
  | receive {p : Piped L} {b : Broadcast} {bs : List Broadcast} :
      p.reader = false → p.crashed = false → p.printer = true →
      p.solo.ended = false → p.solo.hand = none → p.solo.chan = b :: bs →
      Step p { p with solo := { p.solo with hand := some b, chan := bs } }
  /-- clients.rs:29: which is not for the client -/
  | skip {p : Piped L} {b : Broadcast} :
      p.reader = false → p.crashed = false → p.printer = true →
      p.solo.ended = false → p.solo.hand = some b → b.shouldNotify Standalone.client = false →
      Step p { p with solo := { p.solo with hand := none } }
  /-- clients.rs:30: or cannot be printed: the thread dies, and the channel with it -/
  | dies {p : Piped L} {b : Broadcast} :
      p.reader = false → p.crashed = false → p.printer = true →
      p.solo.ended = false → p.solo.hand = some b → b.shouldNotify Standalone.client = true →
      Step p { p with solo := { p.solo with hand := none, chan := [] }, printer := false }

/-- Any number of steps. -/
inductive Run : Nat → Piped L → Piped L → Prop
  | nil (p : Piped L) : Run 0 p p
  | cons {n : Nat} {p q r : Piped L} : Step p q → Run n q r → Run (n + 1) p r

end Piped
end Ced

import Verif.Model.Server
import Verif.Model.Standalone

/-!
# Model of `core/src/clients.rs:13-46`: the two threads of the standalone mode, from the moment both run

`Model/Standalone` has what the main thread decides; here it sends each notification through the channel for 100 messages
(core.rs:37), and the other thread receives them and prints.  When the main thread ends, the process ends.

Simplifications: the standard output takes everything at once, each `println!` being one step (it locks the standard output);
the notifications of a line are sent after the editor has treated it and not while (nobody can see the difference: the
printing thread does not look at the editor).
-/

namespace Ced

/-- The two threads: the editor; the lines to come, each with the files and scripts it will meet; what the end will meet; the
notifications not yet sent; the response not yet printed; whether the client has been removed; whether the process has ended;
what is in the channel; what the printing thread has in its hand; and what has been printed. -/
structure Solo (L : Type) where
  editor : Editor L
  input : List (EditorEnv L × Str)
  last : EditorEnv L
  sends : List Broadcast
  reply : Option Response
  left : Bool
  ended : Bool
  chan : List Broadcast
  hand : Option Broadcast
  out : List Wire

namespace Solo
variable {L : Type}

/-- clients.rs:27-34: the printing thread is there, the main thread begins to read; what was sent during the start is in the
channel. -/
def start (e : Editor L) (input : List (EditorEnv L × Str)) (last : EditorEnv L) : Solo L :=
  { editor := e, input := input, last := last, sends := [], reply := none, left := false, ended := false,
    chan := e.core.out, hand := none, out := [] }

/-- One step of one of the threads. -/
inductive Step : Solo L → Solo L → Prop
  /-- clients.rs:36-38: the next line is treated -/
  | line {s : Solo L} {env : EditorEnv L} {l : Str} {ls : List (EditorEnv L × Str)} {e : Editor L} {r : Response} :
      s.sends = [] → s.reply = none → s.input = (env, l) :: ls → s.editor.handle env Standalone.client l = .ok (e, r) →
      Step s { s with editor := e, input := ls, sends := e.core.out.drop s.editor.core.out.length, reply := some r }
  /-- core.rs:37: a notification is sent, as soon as there is room for it -/
  | send {s : Solo L} {b : Broadcast} {bs : List Broadcast} :
      s.sends = b :: bs → s.chan.length < Standalone.capacity → Step s { s with sends := bs, chan := s.chan ++ [b] }
  /-- clients.rs:39: the response is printed -/
  | answer {s : Solo L} {r : Response} :
      s.sends = [] → s.reply = some r → Step s { s with reply := none, out := s.out ++ [.response r] }
  /-- clients.rs:45: the end of the input -/
  | leave {s : Solo L} {e : Editor L} :
      s.sends = [] → s.reply = none → s.input = [] → s.left = false → s.editor.removeClient s.last Standalone.client = .ok e →
      Step s { s with editor := e, left := true, sends := e.core.out.drop s.editor.core.out.length }
  /-- clients.rs:46: the main thread ends, and the process with it -/
  | exit {s : Solo L} : s.left = true → s.sends = [] → s.ended = false → Step s { s with ended := true }
  /-- clients.rs:28: the printing thread receives a notification -/
  | receive {s : Solo L} {b : Broadcast} {bs : List Broadcast} :
      s.ended = false → s.hand = none → s.chan = b :: bs → Step s { s with hand := some b, chan := bs }
  /-- clients.rs:29-31: and prints it, if it is for the client -/
  | print {s : Solo L} {b : Broadcast} :
      s.ended = false → s.hand = some b →
      Step s { s with hand := none, out := if b.shouldNotify Standalone.client then s.out ++ [.note b.note] else s.out }

/-- Any number of steps of the two threads. -/
inductive Run : Nat → Solo L → Solo L → Prop
  | nil (s : Solo L) : Run 0 s s
  | cons {n : Nat} {s t u : Solo L} : Step s t → Run n t u → Run (n + 1) s u

end Solo
end Ced

import Verif.Model.Reader
import Verif.Spec.Unicode

/-! # What the server hears of the bytes of a connection -/

namespace Ced.Spec

/-- The bytes are these lines, each followed by a newline, and then the beginning of a line. -/
structure Cuts (s : Bytes) (lines : List Bytes) (rest : Bytes) : Prop where
  bytes : s = lines.flatMap (· ++ [10]) ++ rest
  whole : ∀ l ∈ lines, (10 : UInt8) ∉ l
  last : (10 : UInt8) ∉ rest

/-- The text of a line: without one carriage return at its end, if there is one. -/
def LineText (raw : Bytes) (text : Str) : Prop :=
  raw = encode (text ++ ['\r']) ∨ (raw = encode text ∧ ∀ t, text ≠ t ++ ['\r'])

/-- What is heard of lines: the texts of those before the first that is not UTF-8; `true` if there is such a line. -/
inductive Hears : List Bytes → List Str → Bool → Prop
  | all : Hears [] [] false
  | bad {raw : Bytes} {lines : List Bytes} (h : ¬ IsText raw) : Hears (raw :: lines) [] true
  | line {raw : Bytes} {lines : List Bytes} {text : Str} {texts : List Str} {b : Bool} (ht : LineText raw text)
      (h : Hears lines texts b) : Hears (raw :: lines) (text :: texts) b

/-- What is heard of a connection that was closed after the beginning of a line, besides its lines. -/
def HearsLast (rest : Bytes) (texts : List Str) : Prop :=
  (rest = [] ∧ texts = []) ∨ (rest ≠ [] ∧ ∃ t, rest = encode t ∧ texts = [t]) ∨ (¬ IsText rest ∧ texts = [])

/-- The bytes that arrived from a client. -/
def received (c : Nat) (steps : List NetworkStep) : Bytes :=
  steps.flatMap fun s => match s with
    | .data c' chunk => if c' = c then chunk else []
    | _ => []

/-- The client of an event. -/
def clientOf : ServerEvent → Nat
  | .join c => c
  | .leave c => c
  | .message c _ => c

/-- The events of one client. -/
def eventsFrom (c : Nat) (evs : List ServerEvent) : List ServerEvent := evs.filter fun e => clientOf e = c

end Ced.Spec

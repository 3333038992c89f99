import Verif.Model.Utf8
import Verif.Model.Assoc
import Verif.Model.Server

/-!
# Model of the reading side of the connections, in bytes

`core/src/server.rs:141-193` (`read_client`, `serve`), with `futures_lite::io::{BufReader, Lines}` (an external crate,
modelled from its documentation and source).  The bytes of a connection arrive in pieces of any size, at any time; the
tasks of the listener and of the connections run in any order.
-/

namespace Ced

/-- The code point written by the bytes of one well-formed character (`String::from_utf8`). -/
def codePoint : Bytes → Nat
  | [a] => a.toNat
  | [a, b] => a.toNat % 32 * 64 + b.toNat % 64
  | [a, b, c] => a.toNat % 16 * 4096 + b.toNat % 64 * 64 + c.toNat % 64
  | [a, b, c, d] => a.toNat % 8 * 262144 + b.toNat % 64 * 4096 + c.toNat % 64 * 64 + d.toNat % 64
  | _ => 0

/-- `String::from_utf8` with as much fuel as there are bytes. -/
def fromUtf8Aux : Nat → Bytes → Option Str
  | _, [] => some []
  | 0, _ :: _ => none
  | fuel + 1, b :: bs =>
    let h := utf8Head (b :: bs)
    if h.1 then (fromUtf8Aux fuel ((b :: bs).drop h.2)).map fun s => Char.ofNat (codePoint ((b :: bs).take h.2)) :: s
    else none

/-- `String::from_utf8`: the text, or nothing when the bytes are not UTF-8. -/
def fromUtf8 (s : Bytes) : Option Str := fromUtf8Aux s.length s

/-- `Lines::poll_next`: a final newline is removed, and then a final carriage return. -/
def chomp (s : Str) : Str :=
  if s.getLast? = some '\n' then
    if s.dropLast.getLast? = some '\r' then s.dropLast.dropLast else s.dropLast
  else s

/-- `read_line_internal` and `Lines::poll_next` on the bytes of a line: the item of the stream, `none` for the error
"stream did not contain valid UTF-8". -/
def lineItem (bytes : Bytes) : Option Str := (fromUtf8 bytes).map chomp

/-- A `Lines<BufReader<_>>`: the bytes of the line being read, the bytes in the buffer that were not looked at, and
whether the stream was seen to end. -/
structure Lines where
  acc : Bytes
  buf : Bytes
  ended : Bool
deriving DecidableEq, Repr

namespace Lines

/-- server.rs:146 `BufReader::new(stream).lines()`. -/
def new : Lines := ⟨[], [], false⟩

/-- One round of the loop of `read_until_internal` over a buffer with bytes: up to a newline, which completes the line,
or all of it. -/
def poll (l : Lines) : Lines × Option (Option Str) :=
  match l.buf.findIdx? (· = 10) with
  | some i => ({ l with acc := [], buf := l.buf.drop (i + 1) }, some (lineItem (l.acc ++ l.buf.take (i + 1))))
  | none => ({ l with acc := l.acc ++ l.buf, buf := [] }, none)

/-- The same when the stream ends: what was read since the last newline is a line, unless it is empty. -/
def finish (l : Lines) : Lines × Option (Option Str) :=
  ({ l with acc := [], ended := true }, if l.acc = [] then none else some (lineItem l.acc))

end Lines

/-- server.rs:170-193: the next identifier, and the readers that run. -/
structure ByteNetwork where
  next : Nat
  readers : Assoc Nat Lines

/-- What can happen to the connections. -/
inductive NetworkStep where
  /-- a connection is accepted -/
  | accept
  /-- bytes arrive in the empty buffer of a reader -/
  | data (client : Nat) (chunk : Bytes)
  /-- a reader looks at its buffer -/
  | poll (client : Nat)
  /-- a reader sees the end of its stream -/
  | eof (client : Nat)
  /-- a reader gets an error -/
  | reset (client : Nat)
deriving DecidableEq, Repr

namespace ByteNetwork

/-- server.rs:176: nothing connected yet. -/
def start : ByteNetwork := { next := FIRST_CLIENT_ID, readers := [] }

/-- server.rs:146-163: the reader of `c` got an item from its stream (`none`: no line is complete); a line is sent as a
message, an error ends the reader. -/
def item (n : ByteNetwork) (c : Nat) : Lines × Option (Option Str) → ByteNetwork × List ServerEvent
  | (l, none) => ({ n with readers := n.readers.set c l }, [])
  | (l, some (some line)) => ({ n with readers := n.readers.set c l }, [.message c line])
  | (_, some none) => ({ n with readers := n.readers.del c }, [.leave c])

/-- server.rs:141-193 `serve`, `read_client`: the state after a step, and the events put in the channel; `none` when the
step is not possible.  The channel has no bound: sending never waits. -/
def step (n : ByteNetwork) : NetworkStep → Option (ByteNetwork × List ServerEvent)
  | .accept => some ({ next := n.next + 1, readers := n.readers.set n.next Lines.new }, [.join n.next])
  | .data c chunk =>
    match n.readers.get c with
    | some l =>
      if l.buf = [] ∧ chunk ≠ [] ∧ l.ended = false then
        some ({ n with readers := n.readers.set c { l with buf := chunk } }, [])
      else none
    | none => none
  | .poll c =>
    match n.readers.get c with
    | some l => if l.buf = [] then none else some (n.item c l.poll)
    | none => none
  | .eof c =>
    match n.readers.get c with
    | some l =>
      if l.buf = [] then
        if l.acc = [] then some ({ n with readers := n.readers.del c }, [.leave c])
        else some (n.item c l.finish)
      else none
    | none => none
  | .reset c =>
    match n.readers.get c with
    | some l => if l.buf = [] then some ({ n with readers := n.readers.del c }, [.leave c]) else none
    | none => none

/-- Several steps. -/
def run (n : ByteNetwork) : List NetworkStep → Option (ByteNetwork × List ServerEvent)
  | [] => some (n, [])
  | s :: steps =>
    match n.step s with
    | none => none
    | some (n1, evs) =>
      match n1.run steps with
      | none => none
      | some (n2, evs') => some (n2, evs ++ evs')

end ByteNetwork
end Ced

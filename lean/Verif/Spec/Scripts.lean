import Verif.Model.Scripts
import Verif.Spec.Core

/-! # The keys of ced: what the user is told about modes -/

namespace Ced.Spec

/-- The modes of the key handler. -/
inductive KeyMode where
  | normal | insertion | moveTo | extendTo
deriving DecidableEq, Repr

namespace KeyMode

/-- What the status line shows of a mode. -/
def shown : KeyMode → Str
  | normal => str!"N"
  | insertion => str!"I"
  | moveTo => str!"g"
  | extendTo => str!"G"

/-- The mode after a key (given by its display). -/
def next : KeyMode → Str → KeyMode
  | normal, k =>
    if k = str!"i" then insertion else if k = str!"g" then moveTo else if k = str!"s-g" then extendTo else normal
  | insertion, k => if k = str!"esc" then normal else insertion
  | moveTo, _ => normal
  | extendTo, _ => normal

/-- The motions of the normal mode. -/
def motions : List (Str × CursorTarget) := [(str!"h", .left), (str!"j", .down), (str!"k", .up), (str!"l", .right)]

/-- What a key does to the editor, for a client. -/
def op (client : Nat) : KeyMode → Str → Option CoreOp
  | normal, k =>
    match motions.find? (fun m => m.1 = k), motions.find? (fun m => str!"s-" ++ m.1 = k) with
    | some m, _ => some (.move client m.2 false)
    | none, some m => some (.move client m.2 true)
    | none, none =>
      if k = str!"m" then some (.message (some client) str!"hello!")
      else if k = str!"e" then some (.error (some client) str!"lua" str!"oops!")
      else if k = str!"d" then some (.deleteSelection client)
      else none
  | insertion, _ => none
  | moveTo, k =>
    if k = str!"h" then some (.move client .lineBegin false) else if k = str!"l" then some (.move client .lineEnd false) else none
  | extendTo, k =>
    if k = str!"h" then some (.move client .lineBegin true) else if k = str!"l" then some (.move client .lineEnd true) else none

/-- The key means something in the mode: it changes the mode, does something, or leaves a go-to mode. -/
def handles (m : KeyMode) (k : Str) : Prop := m.next k ≠ m ∨ (m.op 0 k).isSome = true

/-- The stack of the names of modes of a handler in this mode: the normal mode, possibly under one other. -/
def stack : KeyMode → List Str
  | normal => [str!"normal"]
  | insertion => [str!"normal", str!"insertion"]
  | moveTo => [str!"normal", str!"moveto"]
  | extendTo => [str!"normal", str!"extendto"]

end KeyMode

/-- The client's handler is in this mode. -/
def InMode (l : LuaState) (client : Nat) (m : KeyMode) : Prop :=
  ∃ h, l.clients.get client = some h ∧ h.modeStack = m.stack

/-- The mode after some keys. -/
def KeyMode.after (m : KeyMode) (keys : List KeyEvent) : KeyMode := keys.foldl (fun m k => m.next k.display) m

/-- The status line of a client: the last key, the mode, the client. -/
def statusLine (session : Str) (client : Nat) (key : Str) (m : KeyMode) : Note :=
  .status [(80, key), (90, m.shown), (100, str!"[" ++ natStr client ++ str!"@" ++ session ++ str!"]")]

end Ced.Spec

import Verif.Model.Scripts
import Verif.Model.Server
import Verif.Spec.Core
import Verif.Spec.Scripts

/-! # Whole sessions: the editor with its scripts, as its clients see it -/

namespace Ced.Spec

/-- Some operations performed one after the other. -/
inductive CoreSteps (ok : CoreOp → Prop) (env : Env) : World → World → Prop
  | none (w : World) : CoreSteps ok env w w
  | next {w w1 w' : World} {op : CoreOp} (hok : ok op) (h : op.run env w = .ok w1) (r : CoreSteps ok env w1 w') :
      CoreSteps ok env w w'

/-- An operation that makes no client join or leave, and creates no buffer with a `{` in its name. -/
def Tidily (op : CoreOp) : Prop :=
  (∀ id session, op ≠ .join id session) ∧ (∀ id, op ≠ .leave id) ∧ ∀ name, op.creates = some name → '{' ∉ name

/-- The script of an `exec` request does nothing but such operations, whoever runs it, and does not touch the key
handlers of `editor.clients`. -/
def TameExec (eng : LuaEngine) : Prop :=
  ∀ c source l w l' w' m, eng.exec c source l w = .ok (l', w', m) → l' = l ∧ CoreSteps Tidily eng.core w w'

/-- The editor runs the scripts of ced, and its tree of syntax follows removed handles (see DESIGN.md). -/
structure Standard (eng : LuaEngine) (env : EditorEnv LuaState) : Prop where
  lua : env.lua = Scripts.lua eng
  core : env.core = eng.core
  tame : TameExec eng
  follows : ∀ i, (env.core.stale i).follows = true

/-- The request names no new buffer with a `{` in its name, neither by itself nor by a choice in a menu. -/
def CleanRequest (q : Request) : Prop :=
  (∀ name scratch, q.method = str!"edit" → Params.get Params.edit q = .ok (some (name, scratch)) → '{' ∉ name) ∧
  (∀ command choice, q.method = str!"menu-select" → Params.get Params.menuSelect q = .ok (some (command, choice)) →
    command ∈ [str!"open", str!"scratch"] → '{' ∉ choice)

/-- So does the line. -/
def CleanLine (env : EditorEnv LuaState) (line : Str) : Prop :=
  ∀ q, (env.parse line).bind Request.decode = some q → CleanRequest q

/-- The states of ced: it starts, clients join and leave and send lines, in any order; the files, the clock and what
`exec` scripts do may change between two steps. -/
inductive CedRun : Editor LuaState → Prop
  | start {eng : LuaEngine} {env : EditorEnv LuaState} (std : Standard eng env) {session : Str} {cwd : Path}
      {args cwdText : Str} {e : Editor LuaState}
      (h : Editor.new env ⟨session, []⟩ (Scripts.prelude eng) session cwd args cwdText = .ok e) : CedRun e
  | join {eng : LuaEngine} {env : EditorEnv LuaState} (std : Standard eng env) {e e' : Editor LuaState} {id : Nat}
      (r : CedRun e) (h : e.addClient env id = .ok e') : CedRun e'
  | leave {eng : LuaEngine} {env : EditorEnv LuaState} (std : Standard eng env) {e e' : Editor LuaState} {id : Nat}
      (r : CedRun e) (h : e.removeClient env id = .ok e') : CedRun e'
  | line {eng : LuaEngine} {env : EditorEnv LuaState} (std : Standard eng env) {e e' : Editor LuaState} {client : Nat}
      {line : Str} {r : Response} (run : CedRun e) (clean : CleanLine env line)
      (h : e.handle env client line = .ok (e', r)) : CedRun e'
  | removed {e : Editor LuaState} (r : CedRun e) : CedRun e.removedClients.1

/-- The states of a server of ced: it starts with an editor that just started, treats events, and writes
notifications, in any order. -/
inductive CedServer : Server LuaState → Prop
  | start {eng : LuaEngine} {env : EditorEnv LuaState} (std : Standard eng env) {session : Str} {cwd : Path}
      {args cwdText : Str} {e : Editor LuaState}
      (h : Editor.new env ⟨session, []⟩ (Scripts.prelude eng) session cwd args cwdText = .ok e) :
      CedServer (Server.start e)
  | event {eng : LuaEngine} {env : EditorEnv LuaState} (std : Standard eng env) {writable last : Bool} {ev : ServerEvent}
      {s s' : Server LuaState} (r : CedServer s) (clean : ∀ c line, ev = .message c line → CleanLine env line)
      (h : s.turn env writable ev = .ok (s', last)) : CedServer s'
  | deliver {s : Server LuaState} (broken : List Nat) (r : CedServer s) : CedServer (s.deliver broken)

end Ced.Spec

import Verif.Spec.Calm
import Verif.Spec.AnyChars
import Verif.Spec.Session
import Verif.Spec.Server
import Verif.Spec.Menu
import Verif.Props.Session
import Verif.Props.Editing
import Verif.Props.Menu

/-! # Clients that cannot crash the server (C81) -/

namespace Ced.Spec
open Props

/-- An operation that a request or a script can ask for: nobody joins or leaves, and no view is sent that is not one. -/
def Honest (op : CoreOp) : Prop :=
  (∀ id session, op ≠ .join id session) ∧ (∀ id, op ≠ .leave id) ∧ ∀ c items, op ≠ .notify c (.view items)

/-- The rules of a session: into which clusters lines may be divided, what may be said in the logs, and which operations are
safe in a state. -/
structure Rules where
  seg : Segmentation → Prop
  text : Str → Prop
  safe : Env → World → CoreOp → Prop

/-- Sessions in ASCII (see C77). -/
def Rules.ascii : Rules := ⟨IsSegmentation, AsciiStr, Safe⟩

/-- Sessions in any characters, lines being divided by `g` (see C95). -/
def Rules.any (g : Segmentation) : Rules := ⟨fun g' => g' = g ∧ IsSegmentation g, fun _ => True, SafeAny⟩

/-- Sessions in any characters in which no cursor moves and nothing is deleted (see C95). -/
def Rules.still : Rules := ⟨IsSegmentation, fun _ => True, SafeStill⟩

variable (R : Rules)

/-- Some safe operations, one after the other; nobody joins or leaves. -/
inductive SafeSteps (env : Env) : World → World → Prop
  | none (w : World) : SafeSteps env w w
  | next {w w1 w' : World} {op : CoreOp} (hh : Honest op) (hs : R.safe env w op) (h : op.run env w = .ok w1) (r : SafeSteps env w1 w') :
      SafeSteps env w w'

/-- The keys of a client in a mode: what each of them does is safe in the state it meets. -/
def SafeKeys (eng : LuaEngine) (session : Str) (client : Nat) : KeyMode → List KeyEvent → World → Prop
  | _, [], _ => True
  | m, k :: ks, w => (∀ op, m.op client k.display = some op → R.safe eng.core w op) ∧
      ∀ w', keysDo eng session client m [k] w = .ok w' → SafeKeys eng session client (m.next k.display) ks w'

/-- A request, other than a choice in a menu, that does not crash the server. -/
def SafeDirect (eng : LuaEngine) (e : Ced.Editor LuaState) (c : Nat) : Call → Prop
  | .edit name scratch => R.safe eng.core e.core (.edit c name scratch)
  | .view id => R.safe eng.core e.core (.view c id)
  | .viewDelete => R.safe eng.core e.core (.viewDelete c)
  | .viewAdd b => R.safe eng.core e.core (.viewAdd c b)
  | .viewRemove b => R.safe eng.core e.core (.viewRemove c b)
  -- plain words are searched (see C46)
  | .menu _ search => ∃ ws, WordsOf search ws ∧ PlainWords ws
  | .keys ks => ∀ m, InMode e.lua c m → SafeKeys R eng e.lua.session c m ks e.core
  -- the script does nothing but safe operations
  | .exec source => ∃ l w m, eng.exec c source e.lua e.core = .ok (l, w, m) ∧ SafeSteps R eng.core e.core w ∧
      ∀ text, m = some text → R.text text
  -- the connection of a client that has quit crashes the server when it is closed (see C41)
  | .quit => False
  | .menuSelect _ _ => False

/-- A request that does not crash the server; a choice in a menu counts as the request it stands for (see C47). -/
def SafeCall (eng : LuaEngine) (e : Ced.Editor LuaState) (c : Nat) : Call → Prop
  | .menuSelect command choice => ∀ call, selectCall command choice = some call → SafeDirect R eng e c call
  | call => SafeDirect R eng e c call

/-- The request asks for this: its method and its parameters. -/
def Asks (q : Request) (call : Call) : Prop := q.method = call.method ∧ ReadBack call q

/-- A line that does not crash the server: a safe request, an ill-typed request, or something else that may be said (which is put
in the log of errors). -/
def SafeLine (eng : LuaEngine) (env : EditorEnv LuaState) (e : Ced.Editor LuaState) (c : Nat) (line : Str) : Prop :=
  match (env.parse line).bind Request.decode with
  | none => R.text (env.lineError line) ∧ R.text line
  | some q => (∀ call, Asks q call → SafeCall R eng e c call) ∧ (q.method ∉ methods → R.text q.encode.write)

/-- An event of the server: a new connection, while there are other clients or there is a single view (see C36); a line of a
connected client, or the end of its connection. -/
def SafeEvent (eng : LuaEngine) (env : EditorEnv LuaState) (s : Server LuaState) : ServerEvent → Prop
  | .join c => c ∉ s.index ∧ (s.index = [] → s.editor.core.views.map.length = 1)
  | .leave c => c ∈ s.index
  | .message c line => c ∈ s.index ∧ SafeLine R eng env s.editor c line

/-- What the server runs with: the scripts of ced; a segmentation of texts; regular expressions that work for plain words. -/
structure SafeEnv (eng : LuaEngine) (env : EditorEnv LuaState) : Prop where
  std : Standard eng env
  seg : R.seg env.core.seg
  plain : ∃ same, PlainEngine same env.compile

/-- The states of a server whose clients only do such things, and read their responses. -/
inductive SafeServer : Server LuaState → Prop
  | start {eng : LuaEngine} {env : EditorEnv LuaState} (ok : SafeEnv R eng env) {session : Str} {cwd : Path}
      {args cwdText : Str} (ha : R.text args) (hc : R.text cwdText) (hp : R.text eng.path) {e : Ced.Editor LuaState}
      (h : Ced.Editor.new env ⟨session, []⟩ (Scripts.prelude eng) session cwd args cwdText = .ok e) :
      SafeServer (Server.start e)
  | event {eng : LuaEngine} {env : EditorEnv LuaState} (ok : SafeEnv R eng env) {last : Bool} {ev : ServerEvent}
      {s s' : Server LuaState} (r : SafeServer s) (hs : SafeEvent R eng env s ev)
      (h : s.turn env true ev = .ok (s', last)) : SafeServer s'
  | deliver {s : Server LuaState} (broken : List Nat) (r : SafeServer s) : SafeServer (s.deliver broken)

/-- A schedule of the server in which every event is safe in the state it meets. -/
def SafeSchedule (s : Server LuaState) : List (Server.Step LuaState) → Prop
  | [] => True
  | .deliver broken :: steps => SafeSchedule (s.deliver broken) steps
  | .event env writable ev :: steps => writable = true ∧ (∃ eng, SafeEnv R eng env ∧ SafeEvent R eng env s ev) ∧
      ∀ s', s.turn env writable ev = .ok (s', false) → SafeSchedule s' steps

end Ced.Spec

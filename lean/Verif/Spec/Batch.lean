import Verif.Model.Standalone
import Verif.Spec.SafeServer
import Verif.Spec.WholeServer

/-! # Editors without a server that cannot crash (C105) -/

namespace Ced.Spec

/-- The rules under which sessions are known not to crash (see C77, C95, C96). -/
inductive Known : Rules → Prop
  | ascii : Known .ascii
  | any {g : Segmentation} (hg : IsSegmentation g) : Known (.any g)
  | still : Known .still
  | whole {g : Segmentation} (hg : IsSegmentation g) : Known (.whole g)

variable (R : Rules)

/-- The only client may open these files, one after the other. -/
def SafeFiles (eng : LuaEngine) (env : EditorEnv LuaState) (e : Ced.Editor LuaState) : List Str → Prop
  | [] => True
  | f :: fs => R.safe eng.core e.core (.edit 1 f false) ∧
      ∀ w, e.core.edit env.core 1 f false = .ok w → SafeFiles eng env { e with core := w } fs

/-- The lines of the only client do not crash the editor (see C81); each comes with the files and the scripts it meets. -/
def SafeInput (e : Ced.Editor LuaState) : List (EditorEnv LuaState × Str) → Prop
  | [] => True
  | (env, line) :: rest => (∃ eng, SafeEnv R eng env ∧ SafeLine R eng env e 1 line) ∧
      ∀ e' r, e.handle env 1 line = .ok (e', r) → SafeInput e' rest

/-- The scripts run for the only client do nothing but safe operations, and when one fails, name and message are such as may be said
in the logs. -/
def SafeScripts (eng : LuaEngine) (e : Ced.Editor LuaState) : List (Str × Str) → Prop
  | [] => True
  | (name, source) :: rest => ∃ l w m, eng.exec 1 source e.lua e.core = .ok (l, w, m) ∧ SafeSteps R eng.core e.core w ∧
      (∀ message, m = some message → R.text name ∧ R.text message) ∧
      (m = none → SafeScripts eng { e with lua := l, core := w } rest)

end Ced.Spec

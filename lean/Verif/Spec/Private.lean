import Verif.Model.Server
import Verif.Spec.Reader

/-! # Who the notifications are for -/

namespace Ced.Spec

/-- A notification is for one client alone, or shows one client the view it is on. -/
def MeantFor (client : Nat) (b : Broadcast) : Prop :=
  b.only = some [client] ∨ ∃ c items, b = ⟨some [c], .view items⟩

/-- What is queued from one state to the next is for one client alone, but for views. -/
def OnlyFor (client : Nat) (w w' : World) : Prop :=
  ∃ new, w'.out = w.out ++ new ∧ ∀ b ∈ new, MeantFor client b

/-- The scripts run for a client notify that client and no other, but for views. -/
def Discreet {L : Type} (lua : Lua L) : Prop :=
  (∀ c l w l' w' m, lua.addClient c l w = .ok (l', w', m) → OnlyFor c w w') ∧
  (∀ c l w l' w' m, lua.removeClient c l w = .ok (l', w', m) → OnlyFor c w w') ∧
  (∀ c k l w l' w' m, lua.key c k l w = .ok (l', w', m) → OnlyFor c w w') ∧
  (∀ c s l w l' w' m, lua.exec c s l w = .ok (l', w', m) → OnlyFor c w w')

end Ced.Spec

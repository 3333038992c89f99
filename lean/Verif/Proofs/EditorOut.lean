import Verif.Proofs.CoreOut
import Verif.Proofs.Editor

/-! # The queue of notifications only grows -/

namespace Ced.World
variable {env : Env} {w w' : World}

theorem Sends.prefix (h : Sends w w') : w.out <+: w'.out := by
  obtain ⟨_, new, e, _⟩ := h
  exact ⟨new, e.symm⟩

theorem error_prefix {client : Option Nat} {tag text : Str} (h : w.error env client tag text = .ok w') :
    w.out <+: w'.out := by
  unfold error at h
  obtain ⟨w1, h1, h⟩ := bind_inv h
  have p := (sends_append h1).prefix
  cases client <;> cases h <;> exact p.trans (List.prefix_append _ _)

theorem message_prefix {client : Option Nat} {text : Str} (h : w.message env client text = .ok w') :
    w.out <+: w'.out := by
  unfold message at h
  obtain ⟨w1, h1, h⟩ := bind_inv h
  have p := (sends_append h1).prefix
  cases client <;> cases h <;> exact p.trans (List.prefix_append _ _)

theorem addClient_prefix {id : Nat} {s : Str} (h : w.addClient env id s = .ok w') : w.out <+: w'.out := by
  unfold addClient at h
  obtain ⟨ctx, _, h⟩ := bind_inv h
  obtain ⟨⟨cs, o⟩, _, h⟩ := bind_inv h
  obtain ⟨w1, h1, h⟩ := bind_inv h
  cases h
  have p := (sends_debug h1).prefix
  exact List.IsPrefix.trans p (List.prefix_append _ _)

theorem removeClient_prefix {id : Nat} (h : w.removeClient env id = .ok w') : w.out <+: w'.out := by
  unfold removeClient at h
  have p := (sends_debug h).prefix
  exact p

end Ced.World

namespace Ced.Spec

/-- The scripts may queue notifications but take none back. -/
def Appending {L : Type} (lua : Lua L) : Prop :=
  (∀ c l w l' w' m, lua.addClient c l w = .ok (l', w', m) → w.out <+: w'.out) ∧
  (∀ c l w l' w' m, lua.removeClient c l w = .ok (l', w', m) → w.out <+: w'.out) ∧
  (∀ c k l w l' w' m, lua.key c k l w = .ok (l', w', m) → w.out <+: w'.out) ∧
  (∀ c s l w l' w' m, lua.exec c s l w = .ok (l', w', m) → w.out <+: w'.out)

end Ced.Spec

namespace Ced.Editor
open Ced.Spec
variable {L : Type} {env : EditorEnv L} {e e' : Editor L}

theorem execLua_prefix {source : Str} {client : Nat} {script : Script L} {o : Option Str}
    (hs : ∀ l w l' w' m, script l w = .ok (l', w', m) → w.out <+: w'.out)
    (h : e.execLua env source client script = .ok (e', o)) : e.core.out <+: e'.core.out := by
  unfold execLua at h
  obtain ⟨⟨l, w, err⟩, h1, h⟩ := bind_inv h
  have p := hs _ _ _ _ _ h1
  cases err with
  | none => cases h; exact p
  | some m =>
    obtain ⟨w1, h2, h⟩ := bind_inv h
    obtain ⟨w2, h3, h⟩ := bind_inv h
    cases h
    exact p.trans ((World.sends_debug h2).prefix.trans (World.error_prefix h3))

theorem addClient_prefix {id : Nat} (hl : Appending env.lua) (h : e.addClient env id = .ok e') :
    e.core.out <+: e'.core.out := by
  unfold addClient at h
  obtain ⟨w, h0, h⟩ := bind_inv h
  obtain ⟨⟨e1, o⟩, h1, h⟩ := bind_inv h
  cases h
  exact (World.addClient_prefix h0).trans (execLua_prefix (hl.1 id) h1)

theorem removeClient_prefix {id : Nat} (hl : Appending env.lua) (h : e.removeClient env id = .ok e') :
    e.core.out <+: e'.core.out := by
  unfold removeClient at h
  obtain ⟨w, h0, h⟩ := bind_inv h
  obtain ⟨⟨e1, o⟩, h1, h⟩ := bind_inv h
  cases h
  exact (World.removeClient_prefix h0).trans (execLua_prefix (hl.2.1 id) h1)

theorem keys_prefix {client : Nat} {ks : List KeyEvent} {a : Answer} (hl : Appending env.lua)
    (h : e.commandKeys env client ks = .ok (e', a)) : e.core.out <+: e'.core.out := by
  induction ks generalizing e with
  | nil => cases h; exact List.prefix_refl _
  | cons k ks ih =>
    rw [commandKeys] at h
    obtain ⟨⟨e1, err⟩, h1, h⟩ := bind_inv h
    have s1 := execLua_prefix (hl.2.2.1 client k) h1
    cases err with
    | none => exact s1.trans (ih h)
    | some m =>
      obtain ⟨w, h2, h⟩ := bind_inv h
      cases h; exact s1.trans (World.error_prefix h2)

theorem sendMenu_prefix {client : Nat} {command search : Str} (h : e.sendMenu env client command search = .ok e') :
    e.core.out <+: e'.core.out := by
  unfold sendMenu at h
  obtain ⟨m, _, h⟩ := bind_inv h
  obtain ⟨n, _, h⟩ := bind_inv h
  cases h; exact List.prefix_append _ _

theorem exec_prefix {client : Nat} {source : Str} {a : Answer} (hl : Appending env.lua)
    (h : e.commandExec env client source = .ok (e', a)) : e.core.out <+: e'.core.out := by
  unfold commandExec at h
  obtain ⟨⟨e1, err⟩, h1, h⟩ := bind_inv h
  cases h
  exact execLua_prefix (hl.2.2.2 client source) h1

theorem edit_prefix {client : Nat} {p : Str × Bool} {a : Answer} (h : e.commandEdit env client p = .ok (e', a)) :
    e.core.out <+: e'.core.out := by
  obtain ⟨w, h1, h⟩ := bind_inv h; cases h; exact (World.sends_edit h1).prefix
theorem quit_prefix {client : Nat} {a : Answer} (h : e.commandQuit env client = .ok (e', a)) :
    e.core.out <+: e'.core.out := by
  obtain ⟨w, h1, h⟩ := bind_inv h; cases h; exact World.removeClient_prefix h1
theorem view_prefix {client : Nat} {p : Str} {a : Answer} (h : e.commandView env client p = .ok (e', a)) :
    e.core.out <+: e'.core.out := by
  obtain ⟨w, h1, h⟩ := bind_inv h; cases h; exact (World.sends_view h1).prefix
theorem viewDelete_prefix {client : Nat} {a : Answer} (h : e.commandViewDelete env client = .ok (e', a)) :
    e.core.out <+: e'.core.out := by
  obtain ⟨w, h1, h⟩ := bind_inv h; cases h; exact (World.sends_deleteCurrentView h1).prefix
theorem viewAdd_prefix {client : Nat} {p : Str} {a : Answer} (h : e.commandViewAdd env client p = .ok (e', a)) :
    e.core.out <+: e'.core.out := by
  obtain ⟨w, h1, h⟩ := bind_inv h; cases h; exact (World.sends_addTo h1).prefix
theorem viewRemove_prefix {client : Nat} {p : Str} {a : Answer} (h : e.commandViewRemove env client p = .ok (e', a)) :
    e.core.out <+: e'.core.out := by
  obtain ⟨w, h1, h⟩ := bind_inv h; cases h; exact (World.sends_removeFrom h1).prefix
theorem submenu_prefix {client : Nat} {key : Str} {a : Answer} (h : e.submenuAction env client key = .ok (e', a)) :
    e.core.out <+: e'.core.out := by
  unfold submenuAction at h
  obtain ⟨m, h1, h⟩ := bind_inv h
  obtain ⟨e1, h2, h⟩ := bind_inv h
  cases h
  have := sendMenu_prefix h2
  exact this
theorem menu_prefix {client : Nat} {p : Str × Str} {a : Answer} (h : e.commandMenu env client p = .ok (e', a)) :
    e.core.out <+: e'.core.out := by
  unfold commandMenu at h
  split at h
  · cases h; exact List.prefix_refl _
  · obtain ⟨e1, h2, h⟩ := bind_inv h
    cases h
    have := sendMenu_prefix h2
    split at this <;> exact this

theorem run_prefix {client : Nat} {key : Str} {act : MenuAction} {a : Answer} (hl : Appending env.lua)
    (h : e.runAction env client key act = .ok (e', a)) : e.core.out <+: e'.core.out := by
  cases act <;> simp only [runAction] at h
  · exact submenu_prefix h
  · exact quit_prefix h
  · exact viewDelete_prefix h
  · exact edit_prefix h
  · exact edit_prefix h
  · exact view_prefix h
  · exact viewAdd_prefix h
  · exact viewRemove_prefix h
  · exact exec_prefix hl h

theorem select_prefix {client : Nat} {p : Str × Str} {a : Answer} (hl : Appending env.lua)
    (h : e.commandMenuSelect env client p = .ok (e', a)) : e.core.out <+: e'.core.out := by
  unfold commandMenuSelect at h
  split at h
  · cases h; exact List.prefix_refl _
  · split at h
    · cases h; exact List.prefix_refl _
    · exact run_prefix hl h

theorem dispatch_prefix {client : Nat} {q : Request} {run : R (Editor L × Answer)} {a : Answer} (hl : Appending env.lua)
    (hd : e.dispatch env client q = some run) (h : run = .ok (e', a)) : e.core.out <+: e'.core.out := by
  subst h
  have wp : ∀ {α : Type} (dec : Json → Option α) (call : Editor L → α → R (Editor L × Answer)),
      some (e.withParams env q dec call) = some (.ok (e', a)) →
      (∀ p, call e p = .ok (e', a) → e.core.out <+: e'.core.out) → e.core.out <+: e'.core.out := by
    intro α dec call h h2
    simp only [Option.some.injEq] at h
    unfold withParams at h
    split at h
    · exact h2 _ h
    · cases h; exact List.prefix_refl _
    · cases h; exact List.prefix_refl _
  have bare : ∀ {r : R (Editor L × Answer)}, some r = some (.ok (e', a)) → r = .ok (e', a) := by
    intro r h; exact Option.some.inj h
  unfold dispatch at hd
  split at hd
  · exact wp _ _ hd fun p h => edit_prefix h
  split at hd
  · exact quit_prefix (bare hd)
  split at hd
  · exact wp _ _ hd fun p h => view_prefix h
  split at hd
  · exact viewDelete_prefix (bare hd)
  split at hd
  · exact wp _ _ hd fun p h => viewAdd_prefix h
  split at hd
  · exact wp _ _ hd fun p h => viewRemove_prefix h
  split at hd
  · exact wp _ _ hd fun p h => menu_prefix h
  split at hd
  · exact wp _ _ hd fun p h => select_prefix hl h
  split at hd
  · exact wp _ _ hd fun p h => keys_prefix hl h
  split at hd
  · exact wp _ _ hd fun p h => exec_prefix hl h
  · cases hd

theorem handle_prefix {client : Nat} {line : Str} {r : Response} (hl : Appending env.lua)
    (h : e.handle env client line = .ok (e', r)) : e.core.out <+: e'.core.out := by
  unfold handle at h
  split at h
  · obtain ⟨w, h1, h⟩ := bind_inv h; cases h; exact World.error_prefix h1
  · split at h
    · rename_i run hd
      obtain ⟨⟨e1, a⟩, h1, h⟩ := bind_inv h
      cases h
      exact dispatch_prefix hl hd h1
    · obtain ⟨w, h1, h⟩ := bind_inv h; cases h; exact World.error_prefix h1

end Ced.Editor

import Verif.Spec.Private
import Verif.Proofs.EditorOut

/-! # What a client's doings queue is for that client alone, but for views -/

namespace Ced.Spec

theorem OnlyFor.refl {d : Nat} (w : World) : OnlyFor d w w := ⟨[], by simp, by simp⟩

theorem OnlyFor.trans {d : Nat} {a b c : World} (h1 : OnlyFor d a b) (h2 : OnlyFor d b c) : OnlyFor d a c := by
  obtain ⟨n1, e1, p1⟩ := h1
  obtain ⟨n2, e2, p2⟩ := h2
  refine ⟨n1 ++ n2, by rw [e2, e1, List.append_assoc], ?_⟩
  intro x hx
  rcases List.mem_append.1 hx with hx | hx
  · exact p1 x hx
  · exact p2 x hx

theorem OnlyFor.notify {d : Nat} (w : World) (n : Note) : OnlyFor d w (w.notify d n) :=
  ⟨[⟨some [d], n⟩], rfl, by intro b hb; simp only [List.mem_singleton] at hb; subst hb; exact .inl rfl⟩

end Ced.Spec

namespace Ced.World
open Ced.Spec
variable {env : Env} {w w' : World}

theorem Sends.only {d : Nat} (h : Sends w w') : OnlyFor d w w' := by
  obtain ⟨_, new, e, p⟩ := h
  refine ⟨new, e, fun b hb => ?_⟩
  obtain ⟨c, items, e, _⟩ := p b hb
  exact .inr ⟨c, items, e⟩

theorem error_only {client : Nat} {tag text : Str} (h : w.error env (some client) tag text = .ok w') :
    OnlyFor client w w' := by
  unfold error at h
  obtain ⟨w1, h1, h⟩ := bind_inv h
  cases h
  exact ((sends_append h1).only).trans (.notify _ _)

theorem message_only {client : Nat} {text : Str} (h : w.message env (some client) text = .ok w') :
    OnlyFor client w w' := by
  unfold message at h
  obtain ⟨w1, h1, h⟩ := bind_inv h
  cases h
  exact ((sends_append h1).only).trans (.notify _ _)

theorem addClient_only {id : Nat} {s : Str} (h : w.addClient env id s = .ok w') : OnlyFor id w w' := by
  unfold addClient at h
  obtain ⟨ctx, _, h⟩ := bind_inv h
  obtain ⟨⟨cs, o⟩, _, h⟩ := bind_inv h
  obtain ⟨w1, h1, h⟩ := bind_inv h
  cases h
  have p : OnlyFor id w w1 := by have := (sends_debug h1).only (d := id); exact this
  exact p.trans (.notify _ _)

theorem removeClient_only {id : Nat} (h : w.removeClient env id = .ok w') : OnlyFor id w w' := by
  unfold removeClient at h
  have p := (sends_debug h).only (d := id)
  exact p

end Ced.World

namespace Ced.Editor
open Ced.Spec
variable {L : Type} {env : EditorEnv L} {e e' : Editor L}

theorem execLua_only {source : Str} {client : Nat} {script : Script L} {o : Option Str}
    (hs : ∀ l w l' w' m, script l w = .ok (l', w', m) → OnlyFor client w w')
    (h : e.execLua env source client script = .ok (e', o)) : OnlyFor client e.core e'.core := by
  unfold execLua at h
  obtain ⟨⟨l, w, err⟩, h1, h⟩ := bind_inv h
  have p := hs _ _ _ _ _ h1
  cases err with
  | none => cases h; exact p
  | some m =>
    obtain ⟨w1, h2, h⟩ := bind_inv h
    obtain ⟨w2, h3, h⟩ := bind_inv h
    cases h
    exact p.trans ((World.sends_debug h2).only.trans (World.error_only h3))

theorem addClient_only {id : Nat} (hl : Discreet env.lua) (h : e.addClient env id = .ok e') :
    OnlyFor id e.core e'.core := by
  unfold addClient at h
  obtain ⟨w, h0, h⟩ := bind_inv h
  obtain ⟨⟨e1, o⟩, h1, h⟩ := bind_inv h
  cases h
  exact (World.addClient_only h0).trans (execLua_only (hl.1 id) h1)

theorem removeClient_only {id : Nat} (hl : Discreet env.lua) (h : e.removeClient env id = .ok e') :
    OnlyFor id e.core e'.core := by
  unfold removeClient at h
  obtain ⟨w, h0, h⟩ := bind_inv h
  obtain ⟨⟨e1, o⟩, h1, h⟩ := bind_inv h
  cases h
  exact (World.removeClient_only h0).trans (execLua_only (hl.2.1 id) h1)

theorem keys_only {client : Nat} {ks : List KeyEvent} {a : Answer} (hl : Discreet env.lua)
    (h : e.commandKeys env client ks = .ok (e', a)) : OnlyFor client e.core e'.core := by
  induction ks generalizing e with
  | nil => cases h; exact .refl _
  | cons k ks ih =>
    rw [commandKeys] at h
    obtain ⟨⟨e1, err⟩, h1, h⟩ := bind_inv h
    have s1 := execLua_only (hl.2.2.1 client k) h1
    cases err with
    | none => exact s1.trans (ih h)
    | some m =>
      obtain ⟨w, h2, h⟩ := bind_inv h
      cases h; exact s1.trans (World.error_only h2)

theorem sendMenu_only {client : Nat} {command search : Str} (h : e.sendMenu env client command search = .ok e') :
    OnlyFor client e.core e'.core := by
  unfold sendMenu at h
  obtain ⟨m, _, h⟩ := bind_inv h
  obtain ⟨n, _, h⟩ := bind_inv h
  cases h; exact (OnlyFor.notify _ _)

theorem exec_only {client : Nat} {source : Str} {a : Answer} (hl : Discreet env.lua)
    (h : e.commandExec env client source = .ok (e', a)) : OnlyFor client e.core e'.core := by
  unfold commandExec at h
  obtain ⟨⟨e1, err⟩, h1, h⟩ := bind_inv h
  cases h
  exact execLua_only (hl.2.2.2 client source) h1

theorem edit_only {client : Nat} {p : Str × Bool} {a : Answer} (h : e.commandEdit env client p = .ok (e', a)) :
    OnlyFor client e.core e'.core := by
  obtain ⟨w, h1, h⟩ := bind_inv h; cases h; exact (World.sends_edit h1).only
theorem quit_only {client : Nat} {a : Answer} (h : e.commandQuit env client = .ok (e', a)) :
    OnlyFor client e.core e'.core := by
  obtain ⟨w, h1, h⟩ := bind_inv h; cases h; exact World.removeClient_only h1
theorem view_only {client : Nat} {p : Str} {a : Answer} (h : e.commandView env client p = .ok (e', a)) :
    OnlyFor client e.core e'.core := by
  obtain ⟨w, h1, h⟩ := bind_inv h; cases h; exact (World.sends_view h1).only
theorem viewDelete_only {client : Nat} {a : Answer} (h : e.commandViewDelete env client = .ok (e', a)) :
    OnlyFor client e.core e'.core := by
  obtain ⟨w, h1, h⟩ := bind_inv h; cases h; exact (World.sends_deleteCurrentView h1).only
theorem viewAdd_only {client : Nat} {p : Str} {a : Answer} (h : e.commandViewAdd env client p = .ok (e', a)) :
    OnlyFor client e.core e'.core := by
  obtain ⟨w, h1, h⟩ := bind_inv h; cases h; exact (World.sends_addTo h1).only
theorem viewRemove_only {client : Nat} {p : Str} {a : Answer} (h : e.commandViewRemove env client p = .ok (e', a)) :
    OnlyFor client e.core e'.core := by
  obtain ⟨w, h1, h⟩ := bind_inv h; cases h; exact (World.sends_removeFrom h1).only
theorem submenu_only {client : Nat} {key : Str} {a : Answer} (h : e.submenuAction env client key = .ok (e', a)) :
    OnlyFor client e.core e'.core := by
  unfold submenuAction at h
  obtain ⟨m, h1, h⟩ := bind_inv h
  obtain ⟨e1, h2, h⟩ := bind_inv h
  cases h
  have := sendMenu_only h2
  exact this
theorem menu_only {client : Nat} {p : Str × Str} {a : Answer} (h : e.commandMenu env client p = .ok (e', a)) :
    OnlyFor client e.core e'.core := by
  unfold commandMenu at h
  split at h
  · cases h; exact .refl _
  · obtain ⟨e1, h2, h⟩ := bind_inv h
    cases h
    have := sendMenu_only h2
    split at this <;> exact this

theorem run_only {client : Nat} {key : Str} {act : MenuAction} {a : Answer} (hl : Discreet env.lua)
    (h : e.runAction env client key act = .ok (e', a)) : OnlyFor client e.core e'.core := by
  cases act <;> simp only [runAction] at h
  · exact submenu_only h
  · exact quit_only h
  · exact viewDelete_only h
  · exact edit_only h
  · exact edit_only h
  · exact view_only h
  · exact viewAdd_only h
  · exact viewRemove_only h
  · exact exec_only hl h

theorem select_only {client : Nat} {p : Str × Str} {a : Answer} (hl : Discreet env.lua)
    (h : e.commandMenuSelect env client p = .ok (e', a)) : OnlyFor client e.core e'.core := by
  unfold commandMenuSelect at h
  split at h
  · cases h; exact .refl _
  · split at h
    · cases h; exact .refl _
    · exact run_only hl h

theorem dispatch_only {client : Nat} {q : Request} {run : R (Editor L × Answer)} {a : Answer} (hl : Discreet env.lua)
    (hd : e.dispatch env client q = some run) (h : run = .ok (e', a)) : OnlyFor client e.core e'.core := by
  subst h
  have wp : ∀ {α : Type} (dec : Json → Option α) (call : Editor L → α → R (Editor L × Answer)),
      some (e.withParams env q dec call) = some (.ok (e', a)) →
      (∀ p, call e p = .ok (e', a) → OnlyFor client e.core e'.core) → OnlyFor client e.core e'.core := by
    intro α dec call h h2
    simp only [Option.some.injEq] at h
    unfold withParams at h
    split at h
    · exact h2 _ h
    · cases h; exact .refl _
    · cases h; exact .refl _
  have bare : ∀ {r : R (Editor L × Answer)}, some r = some (.ok (e', a)) → r = .ok (e', a) := by
    intro r h; exact Option.some.inj h
  unfold dispatch at hd
  split at hd
  · exact wp _ _ hd fun p h => edit_only h
  split at hd
  · exact quit_only (bare hd)
  split at hd
  · exact wp _ _ hd fun p h => view_only h
  split at hd
  · exact viewDelete_only (bare hd)
  split at hd
  · exact wp _ _ hd fun p h => viewAdd_only h
  split at hd
  · exact wp _ _ hd fun p h => viewRemove_only h
  split at hd
  · exact wp _ _ hd fun p h => menu_only h
  split at hd
  · exact wp _ _ hd fun p h => select_only hl h
  split at hd
  · exact wp _ _ hd fun p h => keys_only hl h
  split at hd
  · exact wp _ _ hd fun p h => exec_only hl h
  · cases hd

theorem handle_only {client : Nat} {line : Str} {r : Response} (hl : Discreet env.lua)
    (h : e.handle env client line = .ok (e', r)) : OnlyFor client e.core e'.core := by
  unfold handle at h
  split at h
  · obtain ⟨w, h1, h⟩ := bind_inv h; cases h; exact World.error_only h1
  · split at h
    · rename_i run hd
      obtain ⟨⟨e1, a⟩, h1, h⟩ := bind_inv h
      cases h
      exact dispatch_only hl hd h1
    · obtain ⟨w, h1, h⟩ := bind_inv h; cases h; exact World.error_only h1

end Ced.Editor

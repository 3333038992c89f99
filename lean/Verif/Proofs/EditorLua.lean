import Verif.Proofs.Editor

/-! # What every script keeps, every request keeps -/

namespace Ced.Editor
variable {L : Type} {env : EditorEnv L} {e e' : Editor L}

/-- The scripts that serve requests keep a property of the scripting engine. -/
structure LuaServes (P : L → Prop) (lua : Lua L) : Prop where
  key : ∀ c k l w l' w' m, P l → lua.key c k l w = .ok (l', w', m) → P l'
  exec : ∀ c s l w l' w' m, P l → lua.exec c s l w = .ok (l', w', m) → P l'

/-- Every script keeps a property of the scripting engine. -/
structure LuaKeeps (P : L → Prop) (lua : Lua L) : Prop extends LuaServes P lua where
  add : ∀ c l w l' w' m, P l → lua.addClient c l w = .ok (l', w', m) → P l'
  remove : ∀ c l w l' w' m, P l → lua.removeClient c l w = .ok (l', w', m) → P l'

theorem execLua_keeps {P : L → Prop} {source : Str} {client : Nat} {script : Script L} {o : Option Str}
    (hs : ∀ l w l' w' m, P l → script l w = .ok (l', w', m) → P l')
    (h : e.execLua env source client script = .ok (e', o)) (hp : P e.lua) : P e'.lua := by
  unfold execLua at h
  obtain ⟨⟨l, w, err⟩, h1, h⟩ := bind_inv h
  have p := hs _ _ _ _ _ hp h1
  cases err with
  | none => cases h; exact p
  | some m =>
    obtain ⟨w1, h2, h⟩ := bind_inv h
    obtain ⟨w2, h3, h⟩ := bind_inv h
    cases h
    exact p

theorem addClient_keeps {P : L → Prop} {id : Nat} (hl : LuaKeeps P env.lua) (h : e.addClient env id = .ok e')
    (hp : P e.lua) : P e'.lua := by
  unfold addClient at h
  obtain ⟨w, h0, h⟩ := bind_inv h
  obtain ⟨⟨e1, o⟩, h1, h⟩ := bind_inv h
  cases h
  exact execLua_keeps (hl.add id) h1 hp

theorem removeClient_keeps {P : L → Prop} {id : Nat} (hl : LuaKeeps P env.lua) (h : e.removeClient env id = .ok e')
    (hp : P e.lua) : P e'.lua := by
  unfold removeClient at h
  obtain ⟨w, h0, h⟩ := bind_inv h
  obtain ⟨⟨e1, o⟩, h1, h⟩ := bind_inv h
  cases h
  exact execLua_keeps (hl.remove id) h1 hp

theorem keys_keeps {P : L → Prop} {client : Nat} {ks : List KeyEvent} {a : Answer} (hl : LuaServes P env.lua)
    (h : e.commandKeys env client ks = .ok (e', a)) (hp : P e.lua) : P e'.lua := by
  induction ks generalizing e with
  | nil => cases h; exact hp
  | cons k ks ih =>
    rw [commandKeys] at h
    obtain ⟨⟨e1, err⟩, h1, h⟩ := bind_inv h
    have s1 := execLua_keeps (hl.1 client k) h1 hp
    cases err with
    | none => exact ih h s1
    | some m =>
      obtain ⟨w, h2, h⟩ := bind_inv h
      cases h; exact s1

theorem sendMenu_lua {client : Nat} {command search : Str} (h : e.sendMenu env client command search = .ok e') :
    e'.lua = e.lua := by
  unfold sendMenu at h
  obtain ⟨m, _, h⟩ := bind_inv h
  obtain ⟨n, _, h⟩ := bind_inv h
  cases h; rfl

theorem menu_lua {client : Nat} {p : Str × Str} {a : Answer} (h : e.commandMenu env client p = .ok (e', a)) :
    e'.lua = e.lua := by
  unfold commandMenu at h
  split at h
  · cases h; rfl
  · obtain ⟨e1, h2, h⟩ := bind_inv h
    cases h
    have := sendMenu_lua h2
    split at this <;> exact this

theorem run_keeps {P : L → Prop} {client : Nat} {key : Str} {act : MenuAction} {a : Answer} (hl : LuaServes P env.lua)
    (h : e.runAction env client key act = .ok (e', a)) (hp : P e.lua) : P e'.lua := by
  cases act <;> simp only [runAction] at h
  · unfold submenuAction at h
    obtain ⟨m, h1, h⟩ := bind_inv h
    obtain ⟨e1, h2, h⟩ := bind_inv h
    cases h
    rw [sendMenu_lua h2]; exact hp
  · obtain ⟨m, _, h⟩ := bind_inv h; cases h; exact hp
  · obtain ⟨m, _, h⟩ := bind_inv h; cases h; exact hp
  · obtain ⟨m, _, h⟩ := bind_inv h; cases h; exact hp
  · obtain ⟨m, _, h⟩ := bind_inv h; cases h; exact hp
  · obtain ⟨m, _, h⟩ := bind_inv h; cases h; exact hp
  · obtain ⟨m, _, h⟩ := bind_inv h; cases h; exact hp
  · obtain ⟨m, _, h⟩ := bind_inv h; cases h; exact hp
  · obtain ⟨⟨e1, err⟩, h1, h⟩ := bind_inv h
    cases h
    exact execLua_keeps (hl.2 client key) h1 hp

theorem dispatch_keeps {P : L → Prop} {client : Nat} {q : Request} {run : R (Editor L × Answer)} {a : Answer}
    (hl : LuaServes P env.lua) (hd : e.dispatch env client q = some run) (h : run = .ok (e', a)) (hp : P e.lua) :
    P e'.lua := by
  subst h
  have wp : ∀ {α : Type} (dec : Json → Option α) (call : Editor L → α → R (Editor L × Answer)),
      some (e.withParams env q dec call) = some (.ok (e', a)) →
      (∀ p, call e p = .ok (e', a) → P e'.lua) → P e'.lua := by
    intro α dec call h h2
    simp only [Option.some.injEq] at h
    unfold withParams at h
    split at h
    · exact h2 _ h
    · cases h; exact hp
    · cases h; exact hp
  have bare : ∀ {r : R (Editor L × Answer)}, some r = some (.ok (e', a)) → r = .ok (e', a) := by
    intro r h; exact Option.some.inj h
  unfold dispatch at hd
  split at hd
  · refine wp _ _ hd fun p h => ?_
    obtain ⟨m, _, h⟩ := bind_inv h; cases h; exact hp
  split at hd
  · obtain ⟨m, _, h⟩ := bind_inv (bare hd); cases h; exact hp
  split at hd
  · refine wp _ _ hd fun p h => ?_
    obtain ⟨m, _, h⟩ := bind_inv h; cases h; exact hp
  split at hd
  · obtain ⟨m, _, h⟩ := bind_inv (bare hd); cases h; exact hp
  split at hd
  · refine wp _ _ hd fun p h => ?_
    obtain ⟨m, _, h⟩ := bind_inv h; cases h; exact hp
  split at hd
  · refine wp _ _ hd fun p h => ?_
    obtain ⟨m, _, h⟩ := bind_inv h; cases h; exact hp
  split at hd
  · refine wp _ _ hd fun p h => ?_
    rw [menu_lua h]; exact hp
  split at hd
  · refine wp _ _ hd fun p h => ?_
    unfold commandMenuSelect at h
    split at h
    · cases h; exact hp
    · split at h
      · cases h; exact hp
      · exact run_keeps hl h hp
  split at hd
  · exact wp _ _ hd fun p h => keys_keeps hl h hp
  split at hd
  · refine wp _ _ hd fun p h => ?_
    obtain ⟨⟨e1, err⟩, h1, h⟩ := bind_inv h
    cases h
    exact execLua_keeps (hl.2 client p) h1 hp
  · cases hd

theorem handle_keeps {P : L → Prop} {client : Nat} {line : Str} {r : Response} (hl : LuaServes P env.lua)
    (h : e.handle env client line = .ok (e', r)) (hp : P e.lua) : P e'.lua := by
  unfold handle at h
  split at h
  · obtain ⟨w, h1, h⟩ := bind_inv h; cases h; exact hp
  · split at h
    · rename_i run hd
      obtain ⟨⟨e1, a⟩, h1, h⟩ := bind_inv h
      cases h
      exact dispatch_keeps hl hd h1 hp
    · obtain ⟨w, h1, h⟩ := bind_inv h; cases h; exact hp

end Ced.Editor

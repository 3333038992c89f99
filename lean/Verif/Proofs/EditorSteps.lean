import Verif.Spec.Session
import Verif.Proofs.EditorLua
import Verif.Proofs.CoreOut
import Verif.Props.MenuSelect

/-! # A request is a sequence of operations of the editor -/

namespace Ced.Spec.CoreSteps
variable {ok : CoreOp → Prop} {env : Env} {w w1 w' : World}

theorem trans (a : CoreSteps ok env w w1) (b : CoreSteps ok env w1 w') : CoreSteps ok env w w' := by
  induction a with
  | none _ => exact b
  | next hok h _ ih => exact .next hok h (ih b)

theorem one {op : CoreOp} (hok : ok op) (h : op.run env w = .ok w') : CoreSteps ok env w w' :=
  .next hok h (.none _)

theorem mono {ok' : CoreOp → Prop} (hh : ∀ op, ok op → ok' op) (a : CoreSteps ok env w w') : CoreSteps ok' env w w' := by
  induction a with
  | none _ => exact .none _
  | next hok h _ ih => exact .next (hh _ hok) h ih

end Ced.Spec.CoreSteps

namespace Ced.Editor
open Ced.Spec
variable {L : Type} {env : EditorEnv L} {e e' : Editor L}

theorem tidily_free {op : CoreOp} (h : op.creates = none) (hj : (∀ id s, op ≠ .join id s) ∧ ∀ id, op ≠ .leave id) : Tidily op :=
  ⟨hj.1, hj.2, fun n hn => by rw [h] at hn; cases hn⟩

/-- every script is a sequence of operations -/
structure LuaSteps (env : EditorEnv L) : Prop where
  add : ∀ c l w l' w' m, env.lua.addClient c l w = .ok (l', w', m) → CoreSteps Tidily env.core w w'
  remove : ∀ c l w l' w' m, env.lua.removeClient c l w = .ok (l', w', m) → CoreSteps Tidily env.core w w'
  key : ∀ c k l w l' w' m, env.lua.key c k l w = .ok (l', w', m) → CoreSteps Tidily env.core w w'
  exec : ∀ c s l w l' w' m, env.lua.exec c s l w = .ok (l', w', m) → CoreSteps Tidily env.core w w'

theorem steps_debug {w w' : World} {x : Str} {en : Env} (h : w.debug en x = .ok w') : CoreSteps Tidily en w w' :=
  .one (op := .debug x) (tidily_free rfl (by simp)) h

theorem steps_error {w w' : World} {c : Option Nat} {x y : Str} {en : Env} (h : w.error en c x y = .ok w') :
    CoreSteps Tidily en w w' :=
  .one (op := .error c x y) (tidily_free rfl (by simp)) h

theorem steps_notify {w : World} {c : Nat} {n : Note} {en : Env} : CoreSteps Tidily en w (w.notify c n) :=
  .one (op := .notify c n) (tidily_free rfl (by simp)) rfl

/-- what a request does: some operations, or its client leaves -/
def Served (env : EditorEnv L) (client : Nat) (e e' : Editor L) : Prop :=
  (CoreSteps Tidily env.core e.core e'.core ∧ e'.stopped = e.stopped) ∨
  (e.core.removeClient env.core client = .ok e'.core ∧
    e'.stopped = if client ∈ e.stopped then e.stopped else e.stopped ++ [client])

theorem Served.steps {client : Nat} (h : CoreSteps Tidily env.core e.core e'.core) (hs : e'.stopped = e.stopped) :
    Served env client e e' := .inl ⟨h, hs⟩

theorem Served.refl {client : Nat} : Served env client e e := .inl ⟨.none _, rfl⟩

theorem execLua_steps {source : Str} {client : Nat} {script : Script L} {o : Option Str}
    (hs : ∀ l w l' w' m, script l w = .ok (l', w', m) → CoreSteps Tidily env.core w w')
    (h : e.execLua env source client script = .ok (e', o)) : CoreSteps Tidily env.core e.core e'.core := by
  unfold execLua at h
  obtain ⟨⟨l, w, err⟩, h1, h⟩ := bind_inv h
  have p := hs _ _ _ _ _ h1
  cases err with
  | none => cases h; exact p
  | some m =>
    obtain ⟨w1, h2, h⟩ := bind_inv h
    obtain ⟨w2, h3, h⟩ := bind_inv h
    cases h
    exact p.trans ((steps_debug h2).trans (steps_error h3))

theorem keys_steps {client : Nat} {ks : List KeyEvent} {a : Answer} (hl : LuaSteps env)
    (h : e.commandKeys env client ks = .ok (e', a)) : CoreSteps Tidily env.core e.core e'.core := by
  induction ks generalizing e with
  | nil => cases h; exact .none _
  | cons k ks ih =>
    rw [commandKeys] at h
    obtain ⟨⟨e1, err⟩, h1, h⟩ := bind_inv h
    have s1 := execLua_steps (hl.3 client k) h1
    cases err with
    | none => exact s1.trans (ih h)
    | some m =>
      obtain ⟨w, h2, h⟩ := bind_inv h
      cases h; exact s1.trans (steps_error h2)

theorem sendMenu_steps {client : Nat} {command search : Str} (h : e.sendMenu env client command search = .ok e') :
    CoreSteps Tidily env.core e.core e'.core := by
  unfold sendMenu at h
  obtain ⟨m, _, h⟩ := bind_inv h
  obtain ⟨n, _, h⟩ := bind_inv h
  cases h; exact steps_notify

theorem menu_steps {client : Nat} {p : Str × Str} {a : Answer} (h : e.commandMenu env client p = .ok (e', a)) :
    CoreSteps Tidily env.core e.core e'.core := by
  unfold commandMenu at h
  split at h
  · cases h; exact .none _
  · obtain ⟨e1, h2, h⟩ := bind_inv h
    cases h
    have := sendMenu_steps h2
    split at this <;> exact this

theorem does_steps {client : Nat} {c : Call} {o : Option (Int × Str)} (hl : LuaSteps env) (hm : e.Menus)
    (hc : ∀ name s, c = .edit name s → '{' ∉ name) (hs : ∀ a b, c ≠ .menuSelect a b)
    (h : Ced.Props.Does env e client c = .ok (e', o)) : Served env client e e' := by
  cases c with
  | edit n s =>
    obtain ⟨x, hx, he⟩ := map_inv h
    cases he
    refine .steps (.one (op := .edit client n s) ⟨by simp, by simp, ?_⟩ hx) rfl
    intro m hm; cases hm; exact hc n s rfl
  | quit => obtain ⟨x, hx, he⟩ := map_inv h; cases he; exact .inr ⟨hx, rfl⟩
  | view id =>
    obtain ⟨⟨x, err⟩, hx, he⟩ := map_inv h; cases he
    refine .steps (.one (op := .view client id) (tidily_free rfl (by simp)) ?_) rfl
    show Except.map Prod.fst _ = _; rw [hx]; rfl
  | viewDelete =>
    obtain ⟨x, hx, he⟩ := map_inv h; cases he
    exact .steps (.one (op := .viewDelete client) (tidily_free rfl (by simp)) hx) rfl
  | viewAdd id =>
    obtain ⟨⟨x, err⟩, hx, he⟩ := map_inv h; cases he
    refine .steps (.one (op := .viewAdd client id) (tidily_free rfl (by simp)) ?_) rfl
    show Except.map Prod.fst _ = _; rw [hx]; rfl
  | viewRemove id =>
    obtain ⟨⟨x, err⟩, hx, he⟩ := map_inv h; cases he
    refine .steps (.one (op := .viewRemove client id) (tidily_free rfl (by simp)) ?_) rfl
    show Except.map Prod.fst _ = _; rw [hx]; rfl
  | exec s => obtain ⟨⟨x, err⟩, hx, he⟩ := map_inv h; cases he; exact .steps (execLua_steps (hl.4 client s) hx) (same_execLua hx).stopped
  | menu a b => obtain ⟨⟨x, err⟩, hx, he⟩ := map_inv h; cases he; exact .steps (menu_steps hx) (menus_menu hm hx).2.1
  | menuSelect a b => exact absurd rfl (hs a b)
  | keys ks => obtain ⟨⟨x, err⟩, hx, he⟩ := map_inv h; cases he; exact .steps (keys_steps hl hx) (same_keys hx).stopped

theorem select_steps {client : Nat} {p : Str × Str} {a : Answer} (hl : LuaSteps env) (hm : e.Menus)
    (hc : p.1 ∈ [str!"open", str!"scratch"] → '{' ∉ p.2) (h : e.commandMenuSelect env client p = .ok (e', a)) :
    Served env client e e' := by
  unfold commandMenuSelect at h
  split at h
  · cases h; exact .refl
  · rename_i m hg
    split at h
    · cases h; exact .refl
    · rename_i x hx
      obtain ⟨call, hcall, hr⟩ := Ced.Props.select_run (env := env) (client := client) hm hg hx
      rw [h] at hr
      have hr : Ced.Props.Does env e client call = .ok (e', Ced.Props.outcome a) := hr.symm
      refine does_steps hl hm ?_ ?_ hr
      · rintro name s rfl
        unfold selectCall at hcall
        repeat' split at hcall
        all_goals first | (cases hcall; done) | (cases hcall; apply hc; simp_all)
      · rintro x y rfl
        unfold selectCall at hcall
        repeat' split at hcall
        all_goals cases hcall

theorem dispatch_steps {client : Nat} {q : Request} {run : R (Editor L × Answer)} {a : Answer}
    (hl : LuaSteps env) (hm : e.Menus) (hq : CleanRequest q) (hd : e.dispatch env client q = some run)
    (h : run = .ok (e', a)) : Served env client e e' := by
  subst h
  have wp : ∀ {α : Type} (dec : Json → Option α) (call : Editor L → α → R (Editor L × Answer)),
      some (e.withParams env q dec call) = some (.ok (e', a)) →
      (∀ p, Params.get dec q = .ok (some p) → call e p = .ok (e', a) → Served env client e e') →
      Served env client e e' := by
    intro α dec call h h2
    simp only [Option.some.injEq] at h
    unfold withParams at h
    split at h
    · rename_i hp; exact h2 _ hp h
    · cases h; exact .refl
    · cases h; exact .refl
  have bare : ∀ {r : R (Editor L × Answer)}, some r = some (.ok (e', a)) → r = .ok (e', a) := by
    intro r h; exact Option.some.inj h
  have does : ∀ (c : Call), (∀ name s, c = .edit name s → '{' ∉ name) → (∀ a b, c ≠ .menuSelect a b) →
      (∃ o, Ced.Props.Does env e client c = .ok (e', o)) → Served env client e e' :=
    fun c h1 h2 ⟨o, h3⟩ => does_steps hl hm h1 h2 h3
  unfold dispatch at hd
  split at hd
  · rename_i hmeth
    refine wp _ _ hd fun p hp h => ?_
    obtain ⟨n, s⟩ := p
    refine does (.edit n s) (by rintro _ _ ⟨⟩; exact hq.1 n s hmeth hp) (by simp) ⟨none, ?_⟩
    obtain ⟨w, hw, h⟩ := bind_inv h; cases h
    simp only [Ced.Props.Does]; rw [hw]; rfl
  split at hd
  · obtain ⟨w, hw, h⟩ := bind_inv (bare hd); cases h
    exact .inr ⟨hw, rfl⟩
  split at hd
  · refine wp _ _ hd fun p _ h => ?_
    obtain ⟨⟨w, err⟩, hw, h⟩ := bind_inv h; cases h
    exact does (.view p) (by simp) (by simp) ⟨_, by simp only [Ced.Props.Does]; rw [hw]; rfl⟩
  split at hd
  · obtain ⟨w, hw, h⟩ := bind_inv (bare hd); cases h
    exact does .viewDelete (by simp) (by simp) ⟨_, by simp only [Ced.Props.Does]; rw [hw]; rfl⟩
  split at hd
  · refine wp _ _ hd fun p _ h => ?_
    obtain ⟨⟨w, err⟩, hw, h⟩ := bind_inv h; cases h
    exact does (.viewAdd p) (by simp) (by simp) ⟨_, by simp only [Ced.Props.Does]; rw [hw]; rfl⟩
  split at hd
  · refine wp _ _ hd fun p _ h => ?_
    obtain ⟨⟨w, err⟩, hw, h⟩ := bind_inv h; cases h
    exact does (.viewRemove p) (by simp) (by simp) ⟨_, by simp only [Ced.Props.Does]; rw [hw]; rfl⟩
  split at hd
  · exact wp _ _ hd fun p _ h => .steps (menu_steps h) (menus_menu hm h).2.1
  split at hd
  · rename_i hmeth
    exact wp _ _ hd fun p hp h => select_steps hl hm (hq.2 p.1 p.2 hmeth hp) h
  split at hd
  · exact wp _ _ hd fun p _ h => .steps (keys_steps hl h) (same_keys h).stopped
  split at hd
  · refine wp _ _ hd fun p _ h => ?_
    obtain ⟨⟨e1, err⟩, h1, h⟩ := bind_inv h
    cases h
    exact .steps (execLua_steps (hl.4 client p) h1) (same_execLua h1).stopped
  · cases hd

theorem handle_steps {client : Nat} {line : Str} {r : Response} (hl : LuaSteps env) (hm : e.Menus)
    (hq : ∀ q, (env.parse line).bind Request.decode = some q → CleanRequest q)
    (h : e.handle env client line = .ok (e', r)) : Served env client e e' := by
  unfold handle at h
  split at h
  · obtain ⟨w, h1, h⟩ := bind_inv h; cases h; exact .steps (steps_error h1) rfl
  · rename_i q hrd
    split at h
    · rename_i run hd
      obtain ⟨⟨e1, a⟩, h1, h⟩ := bind_inv h
      cases h
      exact dispatch_steps hl hm (hq q hrd) hd h1
    · obtain ⟨w, h1, h⟩ := bind_inv h; cases h; exact .steps (steps_error h1) rfl

/-- operations that let nobody join or leave keep the clients -/
theorem clients_steps {w w' : World} {en : Env} (h : CoreSteps Tidily en w w') :
    ∀ c, w'.clients.map.has c = w.clients.map.has c := by
  induction h with
  | none _ => exact fun _ => rfl
  | @next w w1 w' op hok h _ ih =>
    intro c
    have of : World.Sends w w1 → w'.clients.map.has c = w.clients.map.has c := fun s => (ih c).trans (s.1 c)
    cases op with
    | join id s => exact absurd rfl (hok.1 id s)
    | leave id => exact absurd rfl (hok.2.1 id)
    | edit c n s => exact of (World.sends_edit h)
    | scratch c n t => exact of (World.sends_scratch h)
    | view c id => obtain ⟨⟨w1, o⟩, h1, rfl⟩ := map_inv h; exact of (World.sends_view h1)
    | viewDelete c => exact of (World.sends_deleteCurrentView h)
    | viewAdd c b => obtain ⟨⟨w1, o⟩, h1, rfl⟩ := map_inv h; exact of (World.sends_addTo h1)
    | viewRemove c b => obtain ⟨⟨w1, o⟩, h1, rfl⟩ := map_inv h; exact of (World.sends_removeFrom h1)
    | move c d e => exact of (World.sends_move h)
    | deleteSelection c => obtain ⟨⟨w1, o⟩, h1, rfl⟩ := map_inv h; exact of (World.sends_deleteSelection h1)
    | append b x xs => exact of (World.sends_append h)
    | debug t => exact of (World.sends_debug h)
    | message o t =>
      simp only [CoreOp.run, World.message] at h
      obtain ⟨w2, h1, h⟩ := bind_inv h
      rw [ih c, ← (World.sends_append h1).1]
      cases o <;> cases h <;> rfl
    | error o tag t =>
      simp only [CoreOp.run, World.error] at h
      obtain ⟨w2, h1, h⟩ := bind_inv h
      rw [ih c, ← (World.sends_append h1).1]
      cases o <;> cases h <;> rfl
    | notify o n => cases h; exact ih c

end Ced.Editor

import Verif.Spec.Server
import Verif.Proofs.Core

/-! # What the requests leave unchanged, and the menus -/

namespace Ced.Editor
open Ced.Spec
variable {L : Type}

/-- everything but the world and the scripting engine -/
structure Same (e e' : Editor L) : Prop where
  session : e'.session = e.session
  menus : e'.menus = e.menus
  stopped : e'.stopped = e.stopped

theorem Same.refl (e : Editor L) : Same e e := ⟨rfl, rfl, rfl⟩
theorem Same.trans {a b c : Editor L} (h1 : Same a b) (h2 : Same b c) : Same a c :=
  ⟨h2.1.trans h1.1, h2.2.trans h1.2, h2.3.trans h1.3⟩

theorem same_execLua {env : EditorEnv L} {e e' : Editor L} {source : Str} {client : Nat} {script : Script L}
    {o : Option Str} (h : e.execLua env source client script = .ok (e', o)) : Same e e' := by
  unfold execLua at h
  obtain ⟨⟨l, w, err⟩, _, h⟩ := bind_inv h
  cases err with
  | none => cases h; exact ⟨rfl, rfl, rfl⟩
  | some m =>
    obtain ⟨w1, _, h⟩ := bind_inv h
    obtain ⟨w2, _, h⟩ := bind_inv h
    cases h; exact ⟨rfl, rfl, rfl⟩

theorem same_addClient {env : EditorEnv L} {e e' : Editor L} {id : Nat} (h : e.addClient env id = .ok e') : Same e e' := by
  unfold addClient at h
  obtain ⟨w, _, h⟩ := bind_inv h
  obtain ⟨⟨e1, o⟩, h1, h⟩ := bind_inv h
  cases h
  have := same_execLua h1
  exact ⟨this.1, this.2, this.3⟩

theorem same_removeClient {env : EditorEnv L} {e e' : Editor L} {id : Nat} (h : e.removeClient env id = .ok e') :
    Same e e' := by
  unfold removeClient at h
  obtain ⟨w, _, h⟩ := bind_inv h
  obtain ⟨⟨e1, o⟩, h1, h⟩ := bind_inv h
  cases h
  have := same_execLua h1
  exact ⟨this.1, this.2, this.3⟩

theorem same_keys {env : EditorEnv L} {client : Nat} {ks : List KeyEvent} {e e' : Editor L} {a : Answer}
    (h : e.commandKeys env client ks = .ok (e', a)) : Same e e' := by
  induction ks generalizing e with
  | nil => cases h; exact .refl _
  | cons k ks ih =>
    rw [commandKeys] at h
    obtain ⟨⟨e1, err⟩, h1, h⟩ := bind_inv h
    have s1 := same_execLua h1
    cases err with
    | none => exact s1.trans (ih h)
    | some m =>
      obtain ⟨w, _, h⟩ := bind_inv h
      cases h; exact ⟨s1.1, s1.2, s1.3⟩

theorem same_sendMenu {env : EditorEnv L} {e e' : Editor L} {client : Nat} {command search : Str}
    (h : e.sendMenu env client command search = .ok e') : Same e e' := by
  unfold sendMenu at h
  obtain ⟨m, _, h⟩ := bind_inv h
  obtain ⟨n, _, h⟩ := bind_inv h
  cases h; exact ⟨rfl, rfl, rfl⟩

/-! ## Menus -/

theorem populate_populate (m : MenuState) (i j : EditorInfo) : (m.populate i).populate j = m.populate j := by
  obtain ⟨a, b, s, l⟩ := m
  cases s <;> rfl

theorem populate_congr {m m0 : MenuState} (hc : m.command = m0.command) (ht : m.title = m0.title)
    (hs : m.source = m0.source) (i : EditorInfo) : m.populate i = m0.populate i := by
  obtain ⟨a, b, s, l⟩ := m
  obtain ⟨a', b', s', l'⟩ := m0
  dsimp only at hc ht hs
  subst hc; subst ht; subst hs
  rfl

theorem menusOk_default : MenusOk defaultCommands := by
  intro key m0 h
  refine ⟨m0, h, rfl, rfl, rfl, ?_⟩
  left
  have : ∀ x ∈ defaultCommands, x.2.entries = [] := by decide
  exact this (key, m0) (Assoc.get_mem h)

/-- filling one menu keeps them right -/
theorem menusOk_populate {menus : Assoc Str MenuState} {key : Str} {m : MenuState} {info : EditorInfo}
    (h : MenusOk menus) (hn : NoOtherMenus menus) (hm : menus.get key = some m) :
    MenusOk (menus.set key (m.populate info)) ∧ NoOtherMenus (menus.set key (m.populate info)) := by
  constructor
  · intro k m0 hk
    by_cases hkey : k = key
    · subst hkey
      obtain ⟨m', hm', h1, h2, h3, _⟩ := h k m0 hk
      rw [hm] at hm'; cases hm'
      refine ⟨_, Assoc.get_set_self .., ?_, ?_, ?_, .inr ⟨info, populate_congr h1 h2 h3 info⟩⟩
      · exact h1
      · exact h2
      · exact h3
    · rw [Assoc.get_set_ne _ hkey]; exact h k m0 hk
  · intro k hk
    by_cases hkey : k = key
    · subst hkey; rw [hn k hk] at hm; cases hm
    · rw [Assoc.get_set_ne _ hkey]; exact hn k hk

/-- The menus are as they should be. -/
def Menus (e : Editor L) : Prop := MenusOk e.menus ∧ NoOtherMenus e.menus

theorem menus_of_same {e e' : Editor L} (s : Same e e') (h : e.Menus) : e'.Menus := by
  unfold Menus; rw [s.menus]; exact h

theorem menus_submenu {env : EditorEnv L} {e e' : Editor L} {client : Nat} {key : Str} {a : Answer} (hm : e.Menus)
    (h : e.submenuAction env client key = .ok (e', a)) : e'.Menus ∧ e'.stopped = e.stopped ∧ e'.session = e.session := by
  unfold submenuAction at h
  obtain ⟨m, h1, h⟩ := bind_inv h
  obtain ⟨e1, h2, h⟩ := bind_inv h
  cases h
  have hg := unwrap_inv h1
  have s := same_sendMenu h2
  exact ⟨menus_of_same s (menusOk_populate hm.1 hm.2 hg), s.stopped, s.session⟩

theorem menus_menu {env : EditorEnv L} {e e' : Editor L} {client : Nat} {p : Str × Str} {a : Answer} (hm : e.Menus)
    (h : e.commandMenu env client p = .ok (e', a)) : e'.Menus ∧ e'.stopped = e.stopped ∧ e'.session = e.session := by
  unfold commandMenu at h
  split at h
  · cases h; exact ⟨hm, rfl, rfl⟩
  · rename_i m hg
    obtain ⟨e1, h2, h⟩ := bind_inv h
    cases h
    have s := same_sendMenu h2
    split at s
    · exact ⟨menus_of_same s (menusOk_populate hm.1 hm.2 hg), s.stopped, s.session⟩
    · exact ⟨menus_of_same s hm, s.stopped, s.session⟩

/-- the entry that quits is found only in the menu of commands -/
theorem quit_entry {e : Editor L} (hm : e.Menus) {key choice : Str} {m : MenuState} {x : MenuEntry}
    (hg : e.menus.get key = some m) (hx : chosen m choice = some x) (hq : x.action = .quit) :
    key = [] ∧ choice = str!"quit" := by
  cases hd : defaultCommands.get key with
  | none => rw [hm.2 key hd] at hg; cases hg
  | some m0 =>
    obtain ⟨m', h1, _, _, hsrc, he⟩ := hm.1 key m0 hd
    rw [hg] at h1
    cases h1
    have hmem : ∃ k, m.get k = some x ∧ (k = choice ∨ (m.isPrompt = true ∧ k = [])) := by
      unfold chosen at hx
      split at hx
      · rename_i y hy; cases hx; exact ⟨choice, hy, .inl rfl⟩
      · split at hx
        · rename_i hp; exact ⟨[], hx, .inr ⟨hp, rfl⟩⟩
        · cases hx
    obtain ⟨k, hk, hkc⟩ := hmem
    unfold MenuState.get at hk
    rcases he with he | ⟨info, rfl⟩
    · rw [he] at hk; cases hk
    · have hin := List.mem_of_find?_eq_some hk
      have hkey := List.find?_some hk
      have hall : ∀ k m, (k, m) ∈ defaultCommands →
          (k = [] ∧ m.source = .provider .commands) ∨
          (∃ msg a, m.source = .prompt msg a ∧ a ≠ .quit) ∨ (∃ p, m.source = .provider p ∧ p ≠ .commands) := by
        intro k m h
        simp only [defaultCommands, List.mem_cons, List.not_mem_nil, or_false, Prod.mk.injEq] at h
        rcases h with ⟨rfl, rfl⟩ | ⟨rfl, rfl⟩ | ⟨rfl, rfl⟩ | ⟨rfl, rfl⟩ | ⟨rfl, rfl⟩ | ⟨rfl, rfl⟩ | ⟨rfl, rfl⟩
        · exact .inl ⟨rfl, rfl⟩
        · exact .inr (.inr ⟨_, rfl, by decide⟩)
        · exact .inr (.inl ⟨_, _, rfl, by decide⟩)
        · exact .inr (.inr ⟨_, rfl, by decide⟩)
        · exact .inr (.inr ⟨_, rfl, by decide⟩)
        · exact .inr (.inr ⟨_, rfl, by decide⟩)
        · exact .inr (.inl ⟨_, _, rfl, by decide⟩)
      rcases hall key m0 (Assoc.get_mem hd) with ⟨rfl, hs⟩ | ⟨msg, a, hs, ha⟩ | ⟨p, hs, hp⟩
      · have hnp : (m0.populate info).isPrompt = false := by
          show (match m0.source with | .prompt _ _ => true | .provider _ => false) = false
          rw [hs]
        rcases hkc with rfl | ⟨h, _⟩
        · refine ⟨rfl, ?_⟩
          have hin' : x ∈ MenuState.commandEntries := by
            unfold MenuState.populate at hin; rw [hs] at hin; exact hin
          have : ∀ y ∈ MenuState.commandEntries, y.action = .quit → y.key = str!"quit" := by decide
          have hk' := this x hin' hq
          simp only [decide_eq_true_eq] at hkey
          rw [← hkey]; exact hk'
        · rw [hnp] at h; cases h
      · exfalso
        unfold MenuState.populate at hin
        rw [hs] at hin
        simp only [List.mem_singleton] at hin
        subst hin
        exact ha hq
      · exfalso
        unfold MenuState.populate at hin
        rw [hs] at hin
        cases p with
        | commands => exact hp rfl
        | files => obtain ⟨k, _, rfl⟩ := List.mem_map.1 hin; cases hq
        | views => obtain ⟨k, _, rfl⟩ := List.mem_map.1 hin; cases hq
        | buffersAdd => obtain ⟨k, _, rfl⟩ := List.mem_map.1 hin; cases hq
        | buffersRemove => obtain ⟨k, _, rfl⟩ := List.mem_map.1 hin; cases hq

/-- what a menu entry does to the menus and the list of those who quit -/
theorem menus_run {env : EditorEnv L} {e e' : Editor L} {client : Nat} {key : Str} {act : MenuAction} {a : Answer}
    (hm : e.Menus) (h : e.runAction env client key act = .ok (e', a)) :
    e'.Menus ∧ e'.session = e.session ∧ (act ≠ .quit → e'.stopped = e.stopped) := by
  cases act <;> simp only [runAction] at h
  · have := menus_submenu hm h; exact ⟨this.1, this.2.2, fun _ => this.2.1⟩
  · obtain ⟨m, _, h⟩ := bind_inv h; cases h; exact ⟨hm, rfl, fun h => absurd rfl h⟩
  · obtain ⟨m, _, h⟩ := bind_inv h; cases h; exact ⟨hm, rfl, fun _ => rfl⟩
  · obtain ⟨m, _, h⟩ := bind_inv h; cases h; exact ⟨hm, rfl, fun _ => rfl⟩
  · obtain ⟨m, _, h⟩ := bind_inv h; cases h; exact ⟨hm, rfl, fun _ => rfl⟩
  · obtain ⟨m, _, h⟩ := bind_inv h; cases h; exact ⟨hm, rfl, fun _ => rfl⟩
  · obtain ⟨m, _, h⟩ := bind_inv h; cases h; exact ⟨hm, rfl, fun _ => rfl⟩
  · obtain ⟨m, _, h⟩ := bind_inv h; cases h; exact ⟨hm, rfl, fun _ => rfl⟩
  · obtain ⟨⟨e1, err⟩, h1, h⟩ := bind_inv h
    cases h
    have s := same_execLua h1
    exact ⟨menus_of_same s hm, s.session, fun _ => s.stopped⟩

/-- what a request does to them -/
theorem menus_dispatch {env : EditorEnv L} {e e' : Editor L} {client : Nat} {q : Request} {run : R (Editor L × Answer)}
    {a : Answer} (hm : e.Menus) (hd : e.dispatch env client q = some run) (h : run = .ok (e', a)) :
    e'.Menus ∧ e'.session = e.session ∧ (¬ IsQuit q → e'.stopped = e.stopped) ∧
      (e'.stopped = e.stopped ∨ e'.stopped = if client ∈ e.stopped then e.stopped else e.stopped ++ [client]) := by
  subst h
  have wp : ∀ {α : Type} (dec : Json → Option α) (call : Editor L → α → R (Editor L × Answer)) (P : Prop),
      e.withParams env q dec call = .ok (e', a) →
      (e' = e → P) → (∀ p, Params.get dec q = .ok (some p) → call e p = .ok (e', a) → P) → P := by
    intro α dec call P h h1 h2
    unfold withParams at h
    split at h
    · rename_i p hp; exact h2 p hp h
    · cases h; exact h1 rfl
    · cases h; exact h1 rfl
  have triv : e' = e → e'.Menus ∧ e'.session = e.session ∧ (¬ IsQuit q → e'.stopped = e.stopped) ∧
      (e'.stopped = e.stopped ∨ e'.stopped = if client ∈ e.stopped then e.stopped else e.stopped ++ [client]) := by
    rintro rfl; exact ⟨hm, rfl, fun _ => rfl, .inl rfl⟩
  have fin : e'.Menus ∧ e'.session = e.session ∧ e'.stopped = e.stopped →
      e'.Menus ∧ e'.session = e.session ∧ (¬ IsQuit q → e'.stopped = e.stopped) ∧
      (e'.stopped = e.stopped ∨ e'.stopped = if client ∈ e.stopped then e.stopped else e.stopped ++ [client]) :=
    fun h => ⟨h.1, h.2.1, fun _ => h.2.2, .inl h.2.2⟩
  unfold dispatch at hd
  split at hd
  · cases hd'' : e.withParams env q Params.edit (fun e p => e.commandEdit env client p)
    all_goals
      rw [hd''] at hd
      simp only [Option.some.injEq] at hd
    · cases hd
    · rw [hd] at hd''
      refine wp _ _ _ hd'' triv fun p _ h => fin ?_
      obtain ⟨w, _, h⟩ := bind_inv h; cases h; exact ⟨hm, rfl, rfl⟩
  split at hd
  · rename_i hq
    simp only [Option.some.injEq] at hd
    unfold commandQuit at hd
    obtain ⟨w, _, h⟩ := bind_inv hd
    cases h
    exact ⟨hm, rfl, fun hn => absurd (.inl hq) hn, .inr rfl⟩
  split at hd
  · simp only [Option.some.injEq] at hd
    refine wp _ _ _ hd triv fun p _ h => fin ?_
    obtain ⟨w, _, h⟩ := bind_inv h; cases h; exact ⟨hm, rfl, rfl⟩
  split at hd
  · simp only [Option.some.injEq] at hd
    obtain ⟨w, _, h⟩ := bind_inv hd; cases h; exact fin ⟨hm, rfl, rfl⟩
  split at hd
  · simp only [Option.some.injEq] at hd
    refine wp _ _ _ hd triv fun p _ h => fin ?_
    obtain ⟨w, _, h⟩ := bind_inv h; cases h; exact ⟨hm, rfl, rfl⟩
  split at hd
  · simp only [Option.some.injEq] at hd
    refine wp _ _ _ hd triv fun p _ h => fin ?_
    obtain ⟨w, _, h⟩ := bind_inv h; cases h; exact ⟨hm, rfl, rfl⟩
  split at hd
  · simp only [Option.some.injEq] at hd
    refine wp _ _ _ hd triv fun p _ h => fin ?_
    have := menus_menu hm h
    exact ⟨this.1, this.2.2, this.2.1⟩
  split at hd
  · rename_i hmeth
    simp only [Option.some.injEq] at hd
    refine wp _ _ _ hd triv fun p hp h => ?_
    unfold commandMenuSelect at h
    split at h
    · cases h; exact triv rfl
    · rename_i m hg
      split at h
      · cases h; exact triv rfl
      · rename_i x hx
        have hr := menus_run hm h
        refine ⟨hr.1, hr.2.1, fun hn => ?_, ?_⟩
        · by_cases hact : x.action = .quit
          · have := quit_entry hm hg hx hact
            refine absurd (.inr ⟨hmeth, ?_⟩) hn
            obtain ⟨p1, p2⟩ := p
            dsimp only at this
            obtain ⟨rfl, rfl⟩ := this
            exact hp
          · exact hr.2.2 hact
        · by_cases hact : x.action = .quit
          · rw [hact] at h
            simp only [runAction] at h
            unfold commandQuit at h
            obtain ⟨w, _, h⟩ := bind_inv h
            cases h; exact .inr rfl
          · exact .inl (hr.2.2 hact)
  split at hd
  · simp only [Option.some.injEq] at hd
    refine wp _ _ _ hd triv fun p _ h => fin ?_
    have := same_keys h
    exact ⟨menus_of_same this hm, this.session, this.stopped⟩
  split at hd
  · simp only [Option.some.injEq] at hd
    refine wp _ _ _ hd triv fun p _ h => fin ?_
    obtain ⟨⟨e1, err⟩, h1, h⟩ := bind_inv h
    cases h
    have := same_execLua h1
    exact ⟨menus_of_same this hm, this.session, this.stopped⟩
  · cases hd

/-- what a line does to them -/
theorem menus_handle {env : EditorEnv L} {e e' : Editor L} {client : Nat} {line : Str} {r : Response} (hm : e.Menus)
    (h : e.handle env client line = .ok (e', r)) :
    e'.Menus ∧ e'.session = e.session ∧ (¬ QuitLine env line → e'.stopped = e.stopped) ∧
      (e'.stopped = e.stopped ∨ e'.stopped = if client ∈ e.stopped then e.stopped else e.stopped ++ [client]) := by
  unfold handle at h
  split at h
  · obtain ⟨w, _, h⟩ := bind_inv h; cases h; exact ⟨hm, rfl, fun _ => rfl, .inl rfl⟩
  · rename_i q hq
    split at h
    · rename_i run hd
      obtain ⟨⟨e1, a⟩, h1, h⟩ := bind_inv h
      cases h
      have := menus_dispatch hm hd h1
      exact ⟨this.1, this.2.1, fun hn => this.2.2.1 fun hq' => hn ⟨q, hq, hq'⟩, this.2.2.2⟩
    · obtain ⟨w, _, h⟩ := bind_inv h; cases h; exact ⟨hm, rfl, fun _ => rfl, .inl rfl⟩

end Ced.Editor

import Verif.Props.Menu

/-! # Choosing in a menu: C47 -/

namespace Ced.Props
open Ced Ced.Spec
variable {L : Type}

/-- The states of an editor: after its start, clients join and leave, and send lines; the world around it (the files,
what the scripts do) may change between two steps. -/
inductive EditorRun : Editor L → Prop
  | start {env : EditorEnv L} {lua : L} {prelude : Script L} {session : Str} {cwd : Path} {args cwdText : Str}
      {e : Editor L} (h : Editor.new env lua prelude session cwd args cwdText = .ok e) : EditorRun e
  | join {env : EditorEnv L} {e e' : Editor L} {id : Nat} (r : EditorRun e) (h : e.addClient env id = .ok e') : EditorRun e'
  | leave {env : EditorEnv L} {e e' : Editor L} {id : Nat} (r : EditorRun e) (h : e.removeClient env id = .ok e') :
      EditorRun e'
  | line {env : EditorEnv L} {e e' : Editor L} {client : Nat} {line : Str} {r : Response} (run : EditorRun e)
      (h : e.handle env client line = .ok (e', r)) : EditorRun e'
  | removed {e : Editor L} (r : EditorRun e) : EditorRun e.removedClients.1

/-- The choice is refused: the answer is the error −32602 and nothing changes. -/
def Refused (env : EditorEnv L) (e : Editor L) (client : Nat) (command choice : Str) : Prop :=
  ∃ message, Does env e client (.menuSelect command choice) = .ok (e, some (-32602, message))

theorem menus_editorRun {e : Editor L} (r : EditorRun e) : e.Menus := by
  induction r with
  | start h =>
    unfold Editor.new at h
    obtain ⟨w, _, h⟩ := bind_inv h
    obtain ⟨⟨l, w', err⟩, _, h⟩ := bind_inv h
    cases err with
    | some _ => cases h
    | none => cases h; exact ⟨Editor.menusOk_default, fun _ h => h⟩
  | join _ h ih => exact Editor.menus_of_same (Editor.same_addClient h) ih
  | leave _ h ih => exact Editor.menus_of_same (Editor.same_removeClient h) ih
  | line _ h ih => exact (Editor.menus_handle ih h).1
  | removed _ ih => exact ih

/-! ### The default menus -/

/-- the seven menus -/
theorem default_cases {key : Str} {m : MenuState} (h : defaultCommands.get key = some m) :
    (key = [] ∧ m.source = .provider .commands) ∨ (key = str!"open" ∧ m.source = .provider .files) ∨
    (key = str!"scratch" ∧ ∃ t, m.source = .prompt t .scratch) ∨ (key = str!"view_select" ∧ m.source = .provider .views) ∨
    (key = str!"view_add" ∧ m.source = .provider .buffersAdd) ∨
    (key = str!"view_remove" ∧ m.source = .provider .buffersRemove) ∨ (key = str!"exec" ∧ ∃ t, m.source = .prompt t .exec) := by
  have h := Assoc.get_mem h
  simp only [defaultCommands, List.mem_cons, List.not_mem_nil, or_false, Prod.mk.injEq] at h
  rcases h with ⟨rfl, rfl⟩ | ⟨rfl, rfl⟩ | ⟨rfl, rfl⟩ | ⟨rfl, rfl⟩ | ⟨rfl, rfl⟩ | ⟨rfl, rfl⟩ | ⟨rfl, rfl⟩
  · exact .inl ⟨rfl, rfl⟩
  · exact .inr (.inl ⟨rfl, rfl⟩)
  · exact .inr (.inr (.inl ⟨rfl, _, rfl⟩))
  · exact .inr (.inr (.inr (.inl ⟨rfl, rfl⟩)))
  · exact .inr (.inr (.inr (.inr (.inl ⟨rfl, rfl⟩))))
  · exact .inr (.inr (.inr (.inr (.inr (.inl ⟨rfl, rfl⟩)))))
  · exact .inr (.inr (.inr (.inr (.inr (.inr ⟨rfl, _, rfl⟩)))))

/-- the menu in a state comes from the default one -/
theorem menu_default {e : Editor L} (hm : e.Menus) {key : Str} {m : MenuState} (hg : e.menus.get key = some m) :
    ∃ m0, defaultCommands.get key = some m0 ∧ m.source = m0.source ∧ (m.entries = [] ∨ ∃ info, m = m0.populate info) := by
  cases hd : defaultCommands.get key with
  | none => rw [hm.2 key hd] at hg; cases hg
  | some m0 =>
    obtain ⟨m', h1, _, _, h4, h5⟩ := hm.1 key m0 hd
    rw [hg] at h1
    cases h1
    exact ⟨m0, rfl, h4, h5⟩

theorem find_plain {a : MenuAction} {l : List Str} {k : Str} {x : MenuEntry}
    (h : (l.map (MenuState.plainEntry a)).find? (fun e => e.key = k) = some x) : x.action = a := by
  obtain ⟨y, _, rfl⟩ := List.mem_map.1 (List.mem_of_find?_eq_some h)
  rfl

theorem find_plain_isSome {a : MenuAction} {l : List Str} {k : Str} :
    ((l.map (MenuState.plainEntry a)).find? (fun e => e.key = k)).isSome = true ↔ k ∈ l := by
  rw [List.find?_isSome]
  constructor
  · rintro ⟨x, hx, hk⟩
    obtain ⟨y, hy, rfl⟩ := List.mem_map.1 hx
    have hk : y = k := of_decide_eq_true hk
    exact hk ▸ hy
  · intro h
    exact ⟨_, List.mem_map.2 ⟨k, h, rfl⟩, by simp [MenuState.plainEntry]⟩

theorem prompt_action {m0 : MenuState} {info : EditorInfo} {t choice : Str} {a : MenuAction} {x : MenuEntry}
    (h0 : m0.source = .prompt t a) (hx : Editor.chosen (m0.populate info) choice = some x) : x.action = a := by
  have hpop : (m0.populate info).entries = [{ key := [], label := t, description := none, action := a }] := by
    unfold MenuState.populate; rw [h0]
  unfold Editor.chosen MenuState.get at hx
  rw [hpop] at hx
  have : ∀ k, [({ key := [], label := t, description := none, action := a } : MenuEntry)].find?
      (fun e => e.key = k) = some x → x.action = a := by
    intro k h
    have := List.mem_of_find?_eq_some h
    simp only [List.mem_singleton] at this
    subst this
    rfl
  split at hx
  · rename_i y hy; cases hx; exact this _ hy
  · split at hx
    · exact this _ hx
    · cases hx

/-- what is run for a choice -/
theorem select_run {env : EditorEnv L} {e : Editor L} (hm : e.Menus) {client : Nat} {key choice : Str} {m : MenuState}
    {x : MenuEntry} (hg : e.menus.get key = some m) (hx : Editor.chosen m choice = some x) :
    ∃ call, selectCall key choice = some call ∧
      (e.runAction env client choice x.action).map (fun r => (r.1, outcome r.2)) = Does env e client call := by
  obtain ⟨m0, hd, hs, he⟩ := menu_default hm hg
  have hent : m.entries ≠ [] := by
    intro h
    unfold Editor.chosen MenuState.get at hx
    rw [h] at hx
    simp at hx
  obtain ⟨info, rfl⟩ := he.resolve_left hent
  have core : ∀ (r : R (World × Option CoreError)),
      (r >>= fun x => pure ({ e with core := x.1 }, Editor.ofCoreError x.2) : R (Editor L × Editor.Answer)).map
        (fun r => (r.1, outcome r.2)) =
      r.map fun x => ({ e with core := x.1 }, x.2.map fun err => ((-32600 : Int), err.display)) := by
    intro r
    rcases r with p | ⟨w, _ | err⟩ <;> rfl
  rcases default_cases hd with ⟨rfl, h0⟩ | ⟨rfl, h0⟩ | ⟨rfl, t, h0⟩ | ⟨rfl, h0⟩ | ⟨rfl, h0⟩ | ⟨rfl, h0⟩ | ⟨rfl, t, h0⟩
  · have hpop : (m0.populate info).entries = MenuState.commandEntries := by unfold MenuState.populate; rw [h0]; rfl
    have hnp : (m0.populate info).isPrompt = false := by unfold MenuState.isPrompt; rw [hs, h0]
    have hx' : MenuState.commandEntries.find? (fun e => e.key = choice) = some x := by
      unfold Editor.chosen MenuState.get at hx
      rw [hpop, hnp] at hx
      split at hx
      · rename_i y hy; rw [hy]; exact hx
      · simp at hx
    have hmem := List.mem_of_find?_eq_some hx'
    have hk := List.find?_some hx'
    simp only [decide_eq_true_eq] at hk
    subst hk
    have sub : ∀ key, key ∈ submenus → (e.submenuAction env client key).map (fun r => (r.1, outcome r.2)) =
        Does env e client (.menu key []) := by
      intro key hkey
      have hd' : ∃ d, defaultCommands.get key = some d := by
        have : ∀ k ∈ submenus, (defaultCommands.get k).isSome = true := by decide
        exact Option.isSome_iff_exists.1 (this key hkey)
      obtain ⟨d, hd'⟩ := hd'
      obtain ⟨m', h1, _⟩ := hm.1 key d hd'
      simp only [Does, Editor.submenuAction, Editor.commandMenu, h1, if_true]
      show ((Editor.sendMenu env _ client key []) >>= _ : R _).map _ = _
      generalize Editor.sendMenu env _ client key [] = y
      cases y <;> rfl
    simp only [MenuState.commandEntries, List.mem_cons, List.not_mem_nil, or_false] at hmem
    rcases hmem with rfl | rfl | rfl | rfl | rfl | rfl | rfl | rfl
    · exact ⟨.menu str!"open" [], rfl, sub _ (by decide)⟩
    · refine ⟨.quit, rfl, ?_⟩
      simp only [Does, Editor.runAction, Editor.commandQuit]
      generalize World.removeClient _ _ _ = y
      cases y <;> rfl
    · exact ⟨.menu str!"scratch" [], rfl, sub _ (by decide)⟩
    · exact ⟨.menu str!"view_select" [], rfl, sub _ (by decide)⟩
    · refine ⟨.viewDelete, rfl, ?_⟩
      simp only [Does, Editor.runAction, Editor.commandViewDelete]
      generalize World.deleteCurrentView _ _ _ = y
      cases y <;> rfl
    · exact ⟨.menu str!"view_add" [], rfl, sub _ (by decide)⟩
    · exact ⟨.menu str!"view_remove" [], rfl, sub _ (by decide)⟩
    · exact ⟨.menu str!"exec" [], rfl, sub _ (by decide)⟩
  all_goals
    first
    | have hxa := prompt_action h0 hx
      rw [hxa]
    | have hnp : (m0.populate info).isPrompt = false := by unfold MenuState.isPrompt; rw [hs, h0]
      have hx' : (m0.populate info).entries.find? (fun e => e.key = choice) = some x := by
        unfold Editor.chosen MenuState.get at hx
        rw [hnp] at hx
        split at hx
        · rename_i y hy; rw [hy]; exact hx
        · simp at hx
      unfold MenuState.populate at hx'
      rw [h0] at hx'
      have hxa := find_plain hx'
      rw [hxa]
  · refine ⟨.edit choice false, rfl, ?_⟩
    simp only [Does, Editor.runAction, Editor.commandEdit]
    generalize World.edit _ _ _ _ _ = y
    cases y <;> rfl
  · refine ⟨.edit choice true, rfl, ?_⟩
    simp only [Does, Editor.runAction, Editor.commandEdit]
    generalize World.edit _ _ _ _ _ = y
    cases y <;> rfl
  · exact ⟨.view choice, rfl, core _⟩
  · exact ⟨.viewAdd choice, rfl, core _⟩
  · exact ⟨.viewRemove choice, rfl, core _⟩
  · refine ⟨.exec choice, rfl, ?_⟩
    simp only [Does, Editor.runAction, Editor.commandExec]
    generalize Editor.execLua _ _ _ _ _ = y
    rcases y with p | ⟨e1, _ | err⟩ <;> rfl

theorem run_code {env : EditorEnv L} {e e' : Editor L} {client : Nat} {key : Str} {act : MenuAction} {a : Editor.Answer}
    (h : e.runAction env client key act = .ok (e', a)) : ∀ err, a = some err → err.code ≠ -32602 := by
  have core : ∀ o err, Editor.ofCoreError o = some err → err.code ≠ -32602 := by
    intro o err h
    cases o with
    | none => cases h
    | some x => cases h; show (-32600 : Int) ≠ -32602; decide
  cases act <;> simp only [Editor.runAction] at h
  · unfold Editor.submenuAction at h
    obtain ⟨m, _, h⟩ := bind_inv h
    obtain ⟨m, _, h⟩ := bind_inv h
    cases h; simp
  · obtain ⟨m, _, h⟩ := bind_inv h; cases h; simp
  · obtain ⟨m, _, h⟩ := bind_inv h; cases h; simp
  · obtain ⟨m, _, h⟩ := bind_inv h; cases h; simp
  · obtain ⟨m, _, h⟩ := bind_inv h; cases h; simp
  · obtain ⟨m, _, h⟩ := bind_inv h; cases h; exact core _
  · obtain ⟨m, _, h⟩ := bind_inv h; cases h; exact core _
  · obtain ⟨m, _, h⟩ := bind_inv h; cases h; exact core _
  · obtain ⟨⟨e1, err⟩, _, h⟩ := bind_inv h
    cases h
    cases err with
    | none => simp
    | some m => intro x hx; cases hx; show (1 : Int) ≠ -32602; decide

theorem refused_iff {env : EditorEnv L} {e : Editor L} {client : Nat} {key choice : Str} :
    Refused env e client key choice ↔ ∀ m, e.menus.get key = some m → Editor.chosen m choice = none := by
  unfold Refused
  simp only [Does, Editor.commandMenuSelect]
  cases hg : e.menus.get key with
  | none =>
    refine iff_of_true ⟨_, rfl⟩ (by simp)
  | some m =>
    dsimp only
    cases hx : Editor.chosen m choice with
    | none =>
      refine iff_of_true ⟨_, rfl⟩ ?_
      intro m' h; cases h; exact hx
    | some x =>
      refine iff_of_false ?_ fun h => by rw [h m rfl] at hx; cases hx
      rintro ⟨msg, h⟩
      dsimp only at h
      cases hr : e.runAction env client choice x.action with
      | error p => rw [hr] at h; cases h
      | ok r =>
        obtain ⟨e', a⟩ := r
        rw [hr] at h
        simp only [Except.map, Except.ok.injEq, Prod.mk.injEq] at h
        obtain ⟨rfl, h⟩ := h
        cases a with
        | none => cases h
        | some err =>
          simp only [Option.map_some, Option.some.injEq, Prod.mk.injEq] at h
          exact run_code hr err rfl h.1

/-- C47: choosing in a menu is refused without any effect, or does the same as the request it stands for. -/
theorem C47_select {e : Editor L} (r : EditorRun e) (env : EditorEnv L) (client : Nat) (command choice : Str) :
    Refused env e client command choice ∨
    (¬ Refused env e client command choice ∧ ∃ call, selectCall command choice = some call ∧
      Does env e client (.menuSelect command choice) = Does env e client call) := by
  by_cases hr : Refused env e client command choice
  · exact .inl hr
  · refine .inr ⟨hr, ?_⟩
    rw [refused_iff] at hr
    simp only [not_forall] at hr
    obtain ⟨m, hg, hx⟩ := hr
    obtain ⟨x, hx⟩ := Option.ne_none_iff_exists'.1 hx
    obtain ⟨call, h1, h2⟩ := select_run (menus_editorRun r) (env := env) (client := client) hg hx
    refine ⟨call, h1, ?_⟩
    rw [← h2]
    simp only [Does, Editor.commandMenuSelect, hg, hx]
    rfl

/-- C47: after the start no menu has been listed: every choice is refused. -/
theorem C47_initial {env : EditorEnv L} {lua : L} {prelude : Script L} {session : Str} {cwd : Path} {args cwdText : Str}
    {e : Editor L} (h : Editor.new env lua prelude session cwd args cwdText = .ok e) (env' : EditorEnv L) (client : Nat)
    (command choice : Str) : Refused env' e client command choice := by
  have hmenus : e.menus = defaultCommands := by
    unfold Editor.new at h
    obtain ⟨w, _, h⟩ := bind_inv h
    obtain ⟨⟨l, w', err⟩, _, h⟩ := bind_inv h
    cases err with
    | some _ => cases h
    | none => cases h; rfl
  rw [refused_iff]
  intro m hg
  rw [hmenus] at hg
  have : ∀ x ∈ defaultCommands, x.2.entries = [] := by decide
  have := this _ (Assoc.get_mem hg)
  unfold Editor.chosen MenuState.get
  rw [this]
  simp

/-- what a freshly filled menu accepts -/
theorem chosen_populated {env : EditorEnv L} {e : Editor L} {key : Str} {m0 : MenuState}
    (hd : defaultCommands.get key = some m0) (choice : Str) :
    Editor.chosen (m0.populate (e.info env)) choice ≠ none ↔ Offers env e key choice := by
  have np : ∀ {l : List MenuEntry}, (m0.populate (e.info env)).isPrompt = false →
      (m0.populate (e.info env)).entries = l →
      (Editor.chosen (m0.populate (e.info env)) choice ≠ none ↔ (l.find? fun x => x.key = choice).isSome = true) := by
    intro l hp hl
    unfold Editor.chosen MenuState.get
    rw [hp, hl]
    cases (l.find? fun x => x.key = choice) <;> simp
  have pr : ∀ {t a}, m0.source = .prompt t a → Editor.chosen (m0.populate (e.info env)) choice ≠ none := by
    intro t a h
    have hp : (m0.populate (e.info env)).isPrompt = true := by
      unfold MenuState.isPrompt MenuState.populate; dsimp only; rw [h]
    have hl : (m0.populate (e.info env)).entries = [{ key := [], label := t, description := none, action := a }] := by
      unfold MenuState.populate; rw [h]
    unfold Editor.chosen MenuState.get
    rw [hp, hl]
    by_cases hc : choice = []
    · subst hc; simp
    · have hc' : ¬ [] = choice := fun h => hc h.symm
      simp [hc']
  unfold Offers
  rcases default_cases hd with ⟨rfl, h0⟩ | ⟨rfl, h0⟩ | ⟨rfl, t, h0⟩ | ⟨rfl, h0⟩ | ⟨rfl, h0⟩ | ⟨rfl, h0⟩ | ⟨rfl, t, h0⟩
  · rw [np (l := MenuState.commandEntries)
      (by unfold MenuState.isPrompt MenuState.populate; dsimp only; rw [h0])
      (by unfold MenuState.populate; rw [h0]; rfl)]
    rw [List.find?_isSome]
    simp only [true_and]
    constructor
    · rintro ⟨x, hx, hk⟩
      have hk : x.key = choice := of_decide_eq_true hk
      subst hk
      have : ∀ x ∈ MenuState.commandEntries, x.key ∈ submenus ∨ x.key = str!"quit" ∨ x.key = str!"view_delete" := by decide
      exact .inl (this x hx)
    · intro h
      have h : choice ∈ submenus ++ [str!"quit", str!"view_delete"] := by
        rcases h with h | ⟨h, _⟩ | ⟨h, _⟩ | ⟨h, _⟩ | h
        · simpa using h
        · cases h
        · cases h
        · simp at h
        · simp at h
      have : ∀ k ∈ submenus ++ [str!"quit", str!"view_delete"], ∃ x ∈ MenuState.commandEntries, x.key = k := by decide
      obtain ⟨x, hx, hk⟩ := this choice h
      exact ⟨x, hx, by simp [hk]⟩
  · rw [np (l := (env.files e.core.cwd).map (MenuState.plainEntry .edit))
      (by unfold MenuState.isPrompt MenuState.populate; dsimp only; rw [h0])
      (by unfold MenuState.populate; rw [h0]; rfl)]
    rw [find_plain_isSome]
    simp
  · exact iff_of_true (pr h0) (by simp)
  · rw [np (l := (e.core.views.map.keys ++ e.core.buffers.keys.filter fun b =>
        e.core.views.map.keys.all (· ≠ (View.forBuffer b).key)).map (MenuState.plainEntry .view))
      (by unfold MenuState.isPrompt MenuState.populate; dsimp only; rw [h0])
      (by unfold MenuState.populate; rw [h0]; rfl)]
    rw [find_plain_isSome, List.mem_append, List.mem_filter, Assoc.mem_keys, Assoc.mem_keys]
    have : ∀ k : Str, (e.core.views.map.keys.all fun x => decide (x ≠ k)) = true ↔ e.core.views.map.has k = false := by
      intro k
      rw [List.all_eq_true, ← Bool.not_eq_true, ← Assoc.mem_keys]
      constructor
      · intro h hk; simpa using h k hk
      · intro h x hx; simp only [decide_eq_true_eq]; rintro rfl; exact h hx
    rw [this]
    simp
  · rw [np (l := e.core.buffers.keys.map (MenuState.plainEntry .viewAdd))
      (by unfold MenuState.isPrompt MenuState.populate; dsimp only; rw [h0])
      (by unfold MenuState.populate; rw [h0]; rfl)]
    rw [find_plain_isSome, Assoc.mem_keys]
    simp
  · rw [np (l := e.core.buffers.keys.map (MenuState.plainEntry .viewRemove))
      (by unfold MenuState.isPrompt MenuState.populate; dsimp only; rw [h0])
      (by unfold MenuState.populate; rw [h0]; rfl)]
    rw [find_plain_isSome, Assoc.mem_keys]
    simp
  · exact iff_of_true (pr h0) (by simp)

/-- C47: listing a menu (asking for it with an empty search) makes it accept exactly what it offers; there are seven
menus, and asking for another one is refused. -/
theorem C47_listed {env : EditorEnv L} {e e' : Editor L} (r : EditorRun e) {client : Nat} {command : Str}
    {out : Option (Int × Str)} (h : Does env e client (.menu command []) = .ok (e', out)) :
    (command ∉ [] :: submenus ∧ e' = e ∧ ∃ message, out = some (-32602, message)) ∨
    (command ∈ [] :: submenus ∧ out = none ∧
      ∀ env' client' choice, Refused env' e' client' command choice ↔ ¬ Offers env e command choice) := by
  have hm := menus_editorRun r
  simp only [Does] at h
  have known : ∀ k, (defaultCommands.get k).isSome = true ↔ k ∈ [] :: submenus := by
    intro k
    have e1 : defaultCommands.keys = [] :: submenus := by decide
    rw [← e1, Assoc.mem_keys]; rfl
  cases hg : e.menus.get command with
  | none =>
    have : defaultCommands.get command = none := by
      cases hd : defaultCommands.get command with
      | none => rfl
      | some m0 => obtain ⟨m, h1, _⟩ := hm.1 _ _ hd; rw [hg] at h1; cases h1
    left
    simp only [Editor.commandMenu, hg, Except.map, Except.ok.injEq, Prod.mk.injEq] at h
    refine ⟨?_, h.1.symm, _, h.2.symm⟩
    rw [← known, this]; simp
  | some m =>
    right
    obtain ⟨m0, hd, hs, he⟩ := menu_default hm hg
    obtain ⟨m', h1, hc, ht, _⟩ := hm.1 _ _ hd
    rw [hg] at h1
    cases h1
    refine ⟨(known _).1 (by rw [hd]; rfl), ?_⟩
    cases hq : e.commandMenu env client (command, []) with
    | error p => rw [hq] at h; cases h
    | ok x =>
      obtain ⟨e1, a⟩ := x
      rw [hq] at h
      simp only [Except.map, Except.ok.injEq, Prod.mk.injEq] at h
      obtain ⟨rfl, h⟩ := h
      simp only [Editor.commandMenu, hg, if_true] at hq
      obtain ⟨e2, h2, hq⟩ := bind_inv hq
      cases hq
      refine ⟨h.symm, ?_⟩
      intro env' client' choice
      rw [refused_iff, (Editor.same_sendMenu h2).menus]
      dsimp only
      rw [Assoc.get_set_self]
      rw [Editor.populate_congr hc ht hs]
      rw [← chosen_populated hd]
      simp

/-- C47: only listing a menu (directly, or by choosing it in the menu of commands) changes what it accepts. -/
theorem C47_kept {env : EditorEnv L} {e e' : Editor L} {client : Nat} {call : Call} {command : Str}
    {out : Option (Int × Str)} (r : EditorRun e) (h : Does env e client call = .ok (e', out))
    (h1 : call ≠ .menu command []) (h2 : call ≠ .menuSelect [] command) (env1 env2 : EditorEnv L) (c1 c2 : Nat) (choice : Str) :
    Refused env1 e' c1 command choice ↔ Refused env2 e c2 command choice := by
  suffices hs : e'.menus.get command = e.menus.get command by rw [refused_iff, refused_iff, hs]
  have menu : ∀ {e e' : Editor L} {key search : Str} {out}, Does env e client (.menu key search) = .ok (e', out) →
      Call.menu key search ≠ .menu command [] → e'.menus.get command = e.menus.get command := by
    intro e e' key search out h hne
    simp only [Does] at h
    obtain ⟨⟨e1, a⟩, hq, h⟩ := map_inv h
    cases h
    unfold Editor.commandMenu at hq
    split at hq
    · cases hq; rfl
    · obtain ⟨e2, h3, hq⟩ := bind_inv hq
      cases hq
      rw [(Editor.same_sendMenu h3).menus]
      split
      · rename_i hs
        dsimp only at hs
        subst hs
        refine Assoc.get_set_ne _ ?_
        rintro rfl; exact hne rfl
      · rfl
  cases call with
  | quit => obtain ⟨w, _, h⟩ := map_inv h; cases h; rfl
  | edit n s => obtain ⟨w, _, h⟩ := map_inv h; cases h; rfl
  | view i => obtain ⟨w, _, h⟩ := map_inv h; cases h; rfl
  | viewDelete => obtain ⟨w, _, h⟩ := map_inv h; cases h; rfl
  | viewAdd i => obtain ⟨w, _, h⟩ := map_inv h; cases h; rfl
  | viewRemove i => obtain ⟨w, _, h⟩ := map_inv h; cases h; rfl
  | exec s =>
    obtain ⟨⟨e1, a⟩, hq, h⟩ := map_inv h; cases h
    rw [(Editor.same_execLua hq).menus]
  | keys ks =>
    obtain ⟨⟨e1, a⟩, hq, h⟩ := map_inv h; cases h
    rw [(Editor.same_keys hq).menus]
  | menu key search => exact menu h h1
  | menuSelect key ch =>
    rcases C47_select r env client key ch with ⟨msg, hr⟩ | ⟨_, call, hc, hd⟩
    · rw [h] at hr; cases hr; rfl
    · rw [hd] at h
      unfold selectCall at hc
      split at hc
      · rename_i hk
        subst hk
        split at hc
        · cases hc
          exact menu h (by rintro ⟨⟩; exact h2 rfl)
        · split at hc
          · cases hc; obtain ⟨w, _, h⟩ := map_inv h; cases h; rfl
          · split at hc
            · cases hc; obtain ⟨w, _, h⟩ := map_inv h; cases h; rfl
            · cases hc
      · repeat' split at hc
        all_goals try cases hc
        all_goals first
          | (obtain ⟨w, _, h⟩ := map_inv h; cases h; rfl)
          | (obtain ⟨⟨e1, a⟩, hq, h⟩ := map_inv h; cases h; rw [(Editor.same_execLua hq).menus])

/-- C47: joining and leaving change nothing either. -/
theorem C47_kept_join {env : EditorEnv L} {e e' : Editor L} {id : Nat} {command : Str}
    (h : e.addClient env id = .ok e' ∨ e.removeClient env id = .ok e') (env1 env2 : EditorEnv L) (c1 c2 : Nat)
    (choice : Str) : Refused env1 e' c1 command choice ↔ Refused env2 e c2 command choice := by
  rw [refused_iff, refused_iff]
  rcases h with h | h
  · rw [(Editor.same_addClient h).menus]
  · rw [(Editor.same_removeClient h).menus]

/-- C44: a menu request sends the result of its search to the client alone, and is the only effect besides listing. -/
theorem C44_sent {env : EditorEnv L} {e e' : Editor L} {client : Nat} {command search : Str}
    (h : Does env e client (.menu command search) = .ok (e', none)) :
    ∃ m note, e'.menus.get command = some m ∧ m.toNotificationParams env.compile search = .ok note ∧
      e'.core = { e.core with out := e.core.out ++ [⟨some [client], note⟩] } ∧ e'.lua = e.lua ∧ e'.stopped = e.stopped := by
  simp only [Does] at h
  obtain ⟨⟨e1, a⟩, hq, h⟩ := map_inv h
  simp only [Prod.mk.injEq] at h
  obtain ⟨rfl, h⟩ := h
  unfold Editor.commandMenu at hq
  split at hq
  · cases hq; cases h
  · rename_i m0 hg
    obtain ⟨e2, h3, hq⟩ := bind_inv hq
    cases hq
    unfold Editor.sendMenu at h3
    obtain ⟨m, h4, h3⟩ := bind_inv h3
    obtain ⟨note, h5, h3⟩ := bind_inv h3
    cases h3
    refine ⟨m, note, ?_, h5, ?_, ?_, ?_⟩
    · exact Assoc.at_inv h4
    all_goals split <;> rfl

/-- with no words, everything is found, at its start -/
theorem regex_nothing (same : Char → Char → Bool) (label : Str) : PlainRegex.regex same [] label = some [some (0, 0)] := by
  cases label <;> rfl

theorem forall2_rows {same : Char → Char → Bool} {l : List MenuEntry} {shown : List MenuParamsEntry}
    (h : List.Forall₂ (fun e p => p.value = e.key ∧ p.description = e.description ∧ p.text.flatMap Prod.fst = e.label ∧
      List.Forall₂ (SameBut same) [] ((p.text.filter fun f => f.2 = .match_).map Prod.fst)) l shown) :
    (shown.map fun p => (p.value, p.text.flatMap Prod.fst, p.description)) = l.map fun e => (e.key, e.label, e.description) := by
  induction h with
  | nil => rfl
  | cons h _ ih =>
    obtain ⟨h1, h2, h3, _⟩ := h
    rw [List.map_cons, List.map_cons, ih, h1, h2, h3]

/-- C47: a client that asks for a menu without a search is shown that menu under its title: the commands, the files, the
views or the buffers that there are, in the order of their labels, or the message of a prompt. -/
theorem C47_shown {env : EditorEnv L} {e e' : Editor L} {same : Char → Char → Bool} (he : PlainEngine same env.compile)
    (r : EditorRun e) {client : Nat} {command : Str} (h : Does env e client (.menu command []) = .ok (e', none)) :
    ∃ title shown, (command, title) ∈ menuTitles ∧
      e'.core.out = e.core.out ++ [⟨some [client], .menu command title [] shown⟩] ∧
      (shown.map fun p => (p.value, p.text.flatMap Prod.fst, p.description)).Perm (menuRows env e command) ∧
      shown.Pairwise fun a b => strLt (b.text.flatMap Prod.fst) (a.text.flatMap Prod.fst) = false := by
  have hm := menus_editorRun r
  obtain ⟨m, note, hg', hn, hc, _, _⟩ := C44_sent h
  simp only [Does] at h
  cases hg : e.menus.get command with
  | none =>
    simp [Editor.commandMenu, hg, Except.map] at h
  | some m1 =>
    obtain ⟨m0, hd, hs, _⟩ := menu_default hm hg
    obtain ⟨m', h1, hcm, ht, _⟩ := hm.1 _ _ hd
    rw [hg] at h1
    cases h1
    have hpop : m = m0.populate (e.info env) := by
      obtain ⟨⟨e1, a⟩, hq, h⟩ := map_inv h
      simp only [Prod.mk.injEq] at h
      obtain ⟨rfl, h⟩ := h
      simp only [Editor.commandMenu, hg, if_true] at hq
      obtain ⟨e2, h2, hq⟩ := bind_inv hq
      cases hq
      rw [(Editor.same_sendMenu h2).menus] at hg'
      dsimp only at hg'
      rw [Assoc.get_set_self] at hg'
      cases hg'
      exact Editor.populate_congr hcm ht hs _
    subst hpop
    have hout : e'.core.out = e.core.out ++ [⟨some [client], note⟩] := by rw [hc]
    have np : ∀ {l : List MenuEntry} {rows : List (Str × Str × Option Str)},
        (m0.populate (e.info env)).isPrompt = false → (m0.populate (e.info env)).entries = l →
        (l.map fun x => (x.key, x.label, x.description)) = rows →
        ∃ shown, note = .menu m0.command m0.title [] shown ∧
          (shown.map fun p => (p.value, p.text.flatMap Prod.fst, p.description)).Perm rows ∧
          shown.Pairwise fun a b => strLt (b.text.flatMap Prod.fst) (a.text.flatMap Prod.fst) = false := by
      intro l rows hp hl hrows
      obtain ⟨sorted, shown, h1, h2, h3, h4⟩ := C46_search he (search := []) (.done (by simp)) ⟨by simp, by simp⟩ hp
      rw [hn] at h1
      cases h1
      have hrow := forall2_rows h4
      refine ⟨shown, rfl, ?_, ?_⟩
      · rw [hrow, ← hrows, ← hl]
        refine List.Perm.map _ (h2.trans ?_)
        rw [List.filter_eq_self.2]
        intro x _
        exact @decide_eq_true _ (Classical.propDecidable _) ⟨[], x.label, rfl, trivial⟩
      · have h5 : (sorted.map fun x => (x.key, x.label, x.description)).Pairwise fun a b => strLt b.2.1 a.2.1 = false := by
          rw [List.pairwise_map]
          refine h3.imp ?_
          rintro a b ⟨n, k, ⟨l1, a1, a2, b1, b2, e1, e2, e3, e4⟩, ⟨l2, c1, c2, d1, d2, f1, f2, f3, f4⟩, hlt⟩
          rw [regex_nothing] at e1 f1
          cases e1
          cases f1
          cases e2
          cases e3
          cases f2
          cases f3
          rcases hlt (by rw [e4]; simp [Str.encode]) (by rw [f4]; simp [Str.encode]) with hlt | ⟨_, hlt⟩
          · simp [e4, f4] at hlt
          · exact hlt
        rw [← hrow, List.pairwise_map] at h5
        exact h5
    have pr : ∀ {t a}, m0.source = .prompt t a → note = .menu m0.command m0.title [] [⟨[], [(t, .prompt)], none⟩] := by
      intro t a h0
      have hp : (m0.populate (e.info env)).isPrompt = true := by
        unfold MenuState.isPrompt MenuState.populate; dsimp only; rw [h0]
      rw [C44_prompt hp] at hn
      have hl : (m0.populate (e.info env)).entries = [{ key := [], label := t, description := none, action := a }] := by
        unfold MenuState.populate; rw [h0]
      rw [hl] at hn
      cases hn
      rfl
    have key : ∀ rows, menuRows env e command = rows → m0.command = command → (command, m0.title) ∈ menuTitles →
        (∃ shown, note = .menu m0.command m0.title [] shown ∧
          (shown.map fun p => (p.value, p.text.flatMap Prod.fst, p.description)).Perm rows ∧
          shown.Pairwise fun a b => strLt (b.text.flatMap Prod.fst) (a.text.flatMap Prod.fst) = false) →
        ∃ title shown, (command, title) ∈ menuTitles ∧
          e'.core.out = e.core.out ++ [⟨some [client], .menu command title [] shown⟩] ∧
          (shown.map fun p => (p.value, p.text.flatMap Prod.fst, p.description)).Perm (menuRows env e command) ∧
          shown.Pairwise fun a b => strLt (b.text.flatMap Prod.fst) (a.text.flatMap Prod.fst) = false := by
      rintro rows hr h1 h2 ⟨shown, rfl, h3, h4⟩
      exact ⟨m0.title, shown, h2, by rw [hout, h1], by rw [hr]; exact h3, h4⟩
    have hd' := Assoc.get_mem hd
    simp only [defaultCommands, List.mem_cons, List.not_mem_nil, or_false, Prod.mk.injEq] at hd'
    have one : ∀ (t : Str) (rows : List (Str × Str × Option Str)), rows = [([], t, none)] →
        note = .menu m0.command m0.title [] [⟨[], [(t, .prompt)], none⟩] →
        ∃ shown, note = .menu m0.command m0.title [] shown ∧
          (shown.map fun p => (p.value, p.text.flatMap Prod.fst, p.description)).Perm rows ∧
          shown.Pairwise fun a b => strLt (b.text.flatMap Prod.fst) (a.text.flatMap Prod.fst) = false := by
      rintro t rows rfl e1
      refine ⟨_, e1, ?_, List.pairwise_singleton ..⟩
      simp
    rcases hd' with ⟨rfl, rfl⟩ | ⟨rfl, rfl⟩ | ⟨rfl, rfl⟩ | ⟨rfl, rfl⟩ | ⟨rfl, rfl⟩ | ⟨rfl, rfl⟩ | ⟨rfl, rfl⟩
    · exact key _ rfl rfl (by decide) (np rfl rfl rfl)
    · refine key _ rfl rfl (by decide) (np rfl rfl ?_)
      show ((env.files e.core.cwd).map (MenuState.plainEntry .edit)).map _ = (env.files e.core.cwd).map _
      rw [List.map_map]; rfl
    · exact key _ rfl rfl (by decide) (one _ _ rfl (pr rfl))
    · refine key _ rfl rfl (by decide) (np rfl rfl ?_)
      show ((e.core.views.map.keys ++ e.core.buffers.keys.filter fun b =>
        e.core.views.map.keys.all (· ≠ (View.forBuffer b).key)).map (MenuState.plainEntry .view)).map _ =
        (e.core.views.map.keys ++ e.core.buffers.keys.filter fun b => !e.core.views.map.has (View.forBuffer b).key).map _
      have : (fun b => e.core.views.map.keys.all fun x => decide (x ≠ (View.forBuffer b).key)) =
          fun b => !e.core.views.map.has (View.forBuffer b).key := by
        funext b
        rw [Bool.eq_iff_iff, List.all_eq_true, Bool.not_eq_true', ← Bool.not_eq_true, ← Assoc.mem_keys]
        constructor
        · intro h hk; simpa using h _ hk
        · intro h x hx; simp only [decide_eq_true_eq]; rintro rfl; exact h hx
      rw [this, List.map_map]; rfl
    · refine key _ rfl rfl (by decide) (np rfl rfl ?_)
      show (e.core.buffers.keys.map (MenuState.plainEntry .viewAdd)).map _ = e.core.buffers.keys.map _
      rw [List.map_map]; rfl
    · refine key _ rfl rfl (by decide) (np rfl rfl ?_)
      show (e.core.buffers.keys.map (MenuState.plainEntry .viewRemove)).map _ = e.core.buffers.keys.map _
      rw [List.map_map]; rfl
    · exact key _ rfl rfl (by decide) (one _ _ rfl (pr rfl))

/-! ### Examples -/

/-- the environment of the examples, with two files and the literal search -/
def menuEnv : EditorEnv Unit :=
  { editorEnvA with files := fun _ => [str!"f", str!"b.txt"],
                    compile := fun p => some (PlainRegex.regex (fun a b => a.toLower == b.toLower)
                      (if p = str!"(?i)(b)" then [str!"b"] else [])) }

/-- The state after the calls of client 1. -/
def calls : List Call → Option (Editor Unit)
  | [] => some editorA
  | c :: cs => (calls cs).bind fun e => ((Does menuEnv e 1 c).toOption).map Prod.fst

/-- the code a call is answered with; 0 for success -/
def code (e : Option (Editor Unit)) (c : Call) : Option Int :=
  e.bind fun e => ((Does menuEnv e 1 c).toOption).map fun x => (x.2.map Prod.fst).getD 0

example : EditorRun editorA := by
  have h : ∃ e, Editor.new editorEnvA () (fun l w => .ok (l, w, none)) str!"s" [] [] [] = .ok e := ⟨_, rfl⟩
  obtain ⟨e, h⟩ := h
  have h2 : ∃ e', e.addClient editorEnvA 1 = .ok e' ∧ e' = editorA := by
    unfold editorA
    rw [h]
    dsimp only
    cases he : e.addClient editorEnvA 1 with
    | ok x => exact ⟨x, rfl, rfl⟩
    | error p =>
      exfalso
      have : (Editor.new editorEnvA () (fun l w => .ok (l, w, none)) str!"s" [] [] [] >>= fun e =>
        e.addClient editorEnvA 1).toOption.isSome = true := by decide +kernel
      rw [h] at this
      change (e.addClient editorEnvA 1).toOption.isSome = true at this
      rw [he] at this
      cases this
  obtain ⟨e', h2, rfl⟩ := h2
  exact .join (.start h) h2

-- not listed yet; listed; not offered; a prompt takes anything
example : code (some editorA) (.menuSelect str!"open" str!"f") = some (-32602) := by decide +kernel
example : code (calls [.menu str!"open" []]) (.menuSelect str!"open" str!"f") = some 0 := by decide +kernel
example : code (calls [.menu str!"open" []]) (.menuSelect str!"open" str!"c.txt") = some (-32602) := by decide +kernel
example : code (calls [.menu [] []]) (.menuSelect [] str!"open") = some 0 := by decide +kernel
example : code (calls [.menuSelect [] str!"scratch", .menu [] []]) (.menuSelect str!"scratch" str!"notes") = some 0 := by
  decide +kernel
example : code (some editorA) (.menu str!"close" []) = some (-32602) := by decide +kernel
-- the search is sent to the client
example : ((calls [.menu str!"open" str!"b", .menu str!"open" []]).map fun e => e.core.out.getLast?) =
    some (some ⟨some [1], .menu str!"open" str!"file" str!"b"
      [⟨str!"b.txt", [([], .default), (str!"b", .match_), (str!".txt", .default)], none⟩]⟩) := by decide +kernel

-- C47_shown applies: the files, by name
example : ((calls [.menu str!"open" []]).map fun e => e.core.out.getLast?) =
    some (some ⟨some [1], .menu str!"open" str!"file" []
      [⟨str!"b.txt", [(str!"b.txt", .default)], none⟩, ⟨str!"f", [(str!"f", .default)], none⟩]⟩) := by decide +kernel

end Ced.Props

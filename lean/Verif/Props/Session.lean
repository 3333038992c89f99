import Verif.Spec.Session
import Verif.Proofs.EditorSteps
import Verif.Props.Scripts
import Verif.Props.Core

/-! # Whole sessions: C49, and the invariants of the editor at the level of the server -/

namespace Ced.Props
open Ced Ced.Spec Ced.Scripts
variable {eng : LuaEngine} {env : EditorEnv LuaState} {e e' : Editor LuaState}

/-! ### The scripts are made of operations -/

theorem steps_tell (client : Nat) (notes : List Note) (w : World) {en : Env} :
    CoreSteps Tidily en w (tell client notes w) := by
  induction notes generalizing w with
  | nil => rw [tell_nil]; exact .none _
  | cons n ns ih =>
    have : tell client (n :: ns) w = tell client ns (w.notify client n) := by
      simp [tell, World.notify, World.broadcast]
    rw [this]
    exact Editor.steps_notify.trans (ih _)

theorem run_steps {client : Nat} {h h' : LuaClient} {w w' : World} {fn : KeyFn}
    (hr : runFn eng client h w fn = .ok (h', w')) : CoreSteps Tidily eng.core w w' := by
  cases fn with
  | enterMode mode =>
    cases hr
    split
    · exact Editor.steps_notify
    · exact .none _
  | exitMode => cases hr; exact .none _
  | move d x =>
    obtain ⟨w1, h1, hr⟩ := bind_inv hr; cases hr
    exact .one (op := .move client d x) (Editor.tidily_free rfl (by simp)) h1
  | goto d x =>
    obtain ⟨w1, h1, hr⟩ := bind_inv hr; cases hr
    exact .one (op := .move client d x) (Editor.tidily_free rfl (by simp)) h1
  | message t =>
    obtain ⟨w1, h1, hr⟩ := bind_inv hr; cases hr
    exact .one (op := .message (some client) t) (Editor.tidily_free rfl (by simp)) h1
  | error t =>
    obtain ⟨w1, h1, hr⟩ := bind_inv hr; cases hr
    exact .one (op := .error (some client) str!"lua" t) (Editor.tidily_free rfl (by simp)) h1
  | deleteSelection =>
    obtain ⟨⟨w1, x⟩, h1, hr⟩ := bind_inv hr; cases hr
    refine .one (op := .deleteSelection client) (Editor.tidily_free rfl (by simp)) ?_
    show Except.map Prod.fst _ = _; rw [h1]; rfl

theorem key_steps {client : Nat} {k : KeyEvent} {l l' : LuaState} {w w' : World} {o : Option Str}
    (h : handleKey eng client k l w = .ok (l', w', o)) : CoreSteps Tidily eng.core w w' := by
  unfold handleKey at h
  split at h
  · cases h; exact .none _
  · split at h
    · cases h; exact .none _
    · split at h
      · cases h; exact .none _
      · obtain ⟨⟨h1, w1⟩, hr, h⟩ := bind_inv h
        have s := run_steps hr
        dsimp only at h
        split at h
        · cases h; exact s
        · cases h; exact s.trans Editor.steps_notify

theorem lua_steps (std : Standard eng env) : Editor.LuaSteps env := by
  obtain ⟨hl, hc, ht, _⟩ := std
  refine ⟨?_, ?_, ?_, ?_⟩ <;> rw [hl, hc]
  · intro c l w l' w' m h; cases h; exact Editor.steps_notify
  · intro c l w l' w' m h; cases h; exact .none _
  · intro c k l w l' w' m h; exact key_steps h
  · intro c s l w l' w' m h; exact (ht c s l w l' w' m h).2

/-! ### The handlers -/

/-- Every handler of the scripts is in one of the modes, and the scripts know the name of the session. -/
def GoodHandlers (session : Str) (l : LuaState) : Prop :=
  l.session = session ∧ ∀ c h, l.clients.get c = some h → ∃ m : KeyMode, h.modeStack = m.stack

theorem good_key {session : Str} {client : Nat} {k : KeyEvent} {l l' : LuaState} {w w' : World} {o : Option Str}
    (g : GoodHandlers session l) (h : (Scripts.lua eng).key client k l w = .ok (l', w', o)) :
    GoodHandlers session l' ∧ ∀ c, l.clients.has c = true → l'.clients.has c = true := by
  cases hg : l.clients.get client with
  | none =>
    have : handleKey eng client k l w = .ok (l', w', o) := h
    unfold handleKey at this
    rw [hg] at this
    cases this; exact ⟨g, fun _ h => h⟩
  | some hd =>
    obtain ⟨m, hm⟩ := g.2 client hd hg
    obtain ⟨l1, ⟨h1, hg1, hm1⟩, hs, ho, hk⟩ := C49_key eng ⟨hd, hg, hm⟩ k w
    have g1 : GoodHandlers session l1 ∧ ∀ c, l.clients.has c = true → l1.clients.has c = true := by
      refine ⟨⟨hs.trans g.1, fun c x hx => ?_⟩, fun c hc => ?_⟩
      · by_cases e : c = client
        · subst e; rw [hg1] at hx; cases hx; exact ⟨_, hm1⟩
        · rw [ho c e] at hx; exact g.2 c x hx
      · by_cases e : c = client
        · subst e; exact Assoc.has_iff.2 ⟨_, hg1⟩
        · rw [Assoc.has_iff] at hc ⊢; rw [ho c e]; exact hc
    rw [hk] at h
    split at h
    · obtain ⟨w1, _, h2⟩ := map_inv h
      cases h2; exact g1
    · cases h; exact g1

/-- What holds of the scripts between two events. -/
structure Handlers (e : Editor LuaState) : Prop where
  good : GoodHandlers e.session e.lua
  connected : ∀ c, e.core.clients.map.has c = true → e.lua.clients.has c = true

theorem serves_good (std : Standard eng env) (session : Str) :
    Editor.LuaServes (GoodHandlers session) env.lua := by
  rw [std.lua]
  refine ⟨fun c k l w l' w' m g h => (good_key g h).1, fun c s l w l' w' m g h => ?_⟩
  rw [(std.tame c s l w l' w' m h).1]; exact g

theorem serves_has (std : Standard eng env) (session : Str) (c : Nat) :
    Editor.LuaServes (fun l => GoodHandlers session l ∧ l.clients.has c = true) env.lua := by
  rw [std.lua]
  refine ⟨fun _ k l w l' w' m g h => ?_, fun _ s l w l' w' m g h => ?_⟩
  · exact ⟨(good_key g.1 h).1, (good_key g.1 h).2 c g.2⟩
  · rw [(std.tame _ s l w l' w' m h).1]; exact g

/-! ### Runs -/

theorem ced_run (r : CedRun e) : EditorRun e := by
  induction r with
  | start _ h => exact .start h
  | join _ _ h ih => exact .join ih h
  | leave _ _ h ih => exact .leave ih h
  | line _ _ _ h ih => exact .line ih h
  | removed _ ih => exact .removed ih

theorem history_steps {w w' : World} {en : Env} (hf : ∀ i, (en.stale i).follows = true) (hs : CoreSteps Tidily en w w')
    (h : CoreHistory CleanName w) : CoreHistory CleanName w' := by
  induction hs with
  | none _ => exact h
  | next hok hr _ ih => exact ih (.step h hok.2.2 hf hr)

theorem served_steps {client : Nat} (hf : ∀ i, (env.core.stale i).follows = true) (hs : Editor.Served env client e e')
    (h : CoreHistory CleanName e.core) : CoreHistory CleanName e'.core := by
  rcases hs with ⟨hs, _⟩ | ⟨hs, _⟩
  · exact history_steps hf hs h
  · exact .step (op := .leave client) h (by intro n hn; cases hn) hf hs

theorem add_inv {id : Nat} (h : e.addClient env id = .ok e') :
    ∃ w, e.core.addClient env.core id e.session = .ok w ∧
      ∃ e1 o, ({ e with core := w } : Editor LuaState).execLua env str!"add_client" id (env.lua.addClient id) = .ok (e1, o) ∧
        e' = e1 := by
  unfold Editor.addClient at h
  obtain ⟨w, h1, h⟩ := bind_inv h
  obtain ⟨⟨e1, o⟩, h2, h⟩ := bind_inv h
  cases h
  exact ⟨w, h1, _, o, h2, rfl⟩

theorem remove_inv {id : Nat} (h : e.removeClient env id = .ok e') :
    ∃ w, e.core.removeClient env.core id = .ok w ∧
      ∃ e1 o, ({ e with core := w } : Editor LuaState).execLua env str!"remove_client" id (env.lua.removeClient id) = .ok (e1, o) ∧
        e' = e1 := by
  unfold Editor.removeClient at h
  obtain ⟨w, h1, h⟩ := bind_inv h
  obtain ⟨⟨e1, o⟩, h2, h⟩ := bind_inv h
  cases h
  exact ⟨w, h1, _, o, h2, rfl⟩

/-- the world of a session is reached by operations on clean names -/
theorem ced_history (r : CedRun e) : CoreHistory CleanName e.core := by
  induction r with
  | @start eng env std session cwd args cwdText e h =>
    unfold Editor.new at h
    obtain ⟨w, h1, h⟩ := bind_inv h
    obtain ⟨⟨l, w', err⟩, h2, h⟩ := bind_inv h
    unfold Scripts.prelude at h2
    obtain ⟨w2, h3, h2⟩ := bind_inv h2
    obtain ⟨w3, h4, h2⟩ := bind_inv h2
    cases h2
    cases h
    rw [← std.core] at h3 h4
    exact .step (op := .debug _) (.step (op := .debug _) (.start h1) (by intro n hn; cases hn) std.follows h3)
      (by intro n hn; cases hn) std.follows h4
  | @join eng env std e e' id r h ih =>
    obtain ⟨w, h1, e1, o, h2, rfl⟩ := add_inv h
    have := Editor.execLua_steps ((lua_steps std).add id) h2
    exact history_steps std.follows this (.step (op := .join id e.session) ih (by intro n hn; cases hn) std.follows h1)
  | @leave eng env std e e' id r h ih =>
    obtain ⟨w, h1, e1, o, h2, rfl⟩ := remove_inv h
    have := Editor.execLua_steps ((lua_steps std).remove id) h2
    exact history_steps std.follows this (.step (op := .leave id) ih (by intro n hn; cases hn) std.follows h1)
  | line std run clean h ih =>
    exact served_steps std.follows (Editor.handle_steps (lua_steps std) (menus_editorRun (ced_run run)) clean h) ih
  | removed _ ih => exact ih

/-- the clients after one has left -/
theorem clients_leave {w w' : World} {en : Env} {id : Nat} (hh : CoreHistory CleanName w)
    (h : w.removeClient en id = .ok w') (c : Nat) :
    w'.clients.map.has c = true ↔ c ≠ id ∧ w.clients.map.has c = true := by
  have i := World.inv_history (fun _ _ h => h) hh
  unfold World.removeClient at h
  have hs := (World.sends_debug h).1 c
  rw [hs]
  show (w.clients.remove id).1.map.has c = true ↔ _
  rcases World.remove_cases w.clients id with ⟨hn, e⟩ | ⟨_, e, _⟩
  · rw [e]
    constructor
    · intro hc
      refine ⟨?_, hc⟩
      rintro rfl
      exact hn ((i.cstack c).2 hc)
    · exact fun h => h.2
  · rw [e, Assoc.has_del]; simp

/-- the clients after one has joined -/
theorem clients_join {w w' : World} {en : Env} {id : Nat} {session : Str} (h : w.addClient en id session = .ok w') (c : Nat) :
    w'.clients.map.has c = true ↔ c = id ∨ w.clients.map.has c = true := by
  unfold World.addClient at h
  obtain ⟨ctx, _, h⟩ := bind_inv h
  obtain ⟨⟨cs, o⟩, hcs, h⟩ := bind_inv h
  obtain ⟨w1, h1, h⟩ := bind_inv h
  cases h
  have hs := (World.sends_debug h1).1 c
  show w1.clients.map.has c = true ↔ _
  rw [hs]
  obtain ⟨st, e, _⟩ := StackMap.insert_ok w.clients id ctx
  rw [e] at hcs
  cases hcs
  show (w.clients.map.set id ctx).has c = true ↔ _
  rw [Assoc.has_set]; simp

theorem add_state (std : Standard eng env) {id : Nat} (h : e.addClient env id = .ok e') :
    e'.lua = { e.lua with clients := e.lua.clients.set id { modeStack := [str!"normal"], keysText := none, modeText := none } } ∧
      ∃ w, e.core.addClient env.core id e.session = .ok w ∧
        e'.core = w.notify id (.status [(100, str!"[" ++ natStr id ++ str!"@" ++ e.lua.session ++ str!"]")]) := by
  obtain ⟨w, h1, e1, o, h2, rfl⟩ := add_inv h
  unfold Editor.execLua at h2
  rw [std.lua] at h2
  cases h2
  exact ⟨rfl, w, h1, rfl⟩

theorem remove_state (std : Standard eng env) {id : Nat} (h : e.removeClient env id = .ok e') :
    e'.lua = { e.lua with clients := e.lua.clients.del id } ∧ e.core.removeClient env.core id = .ok e'.core := by
  obtain ⟨w, h1, e1, o, h2, rfl⟩ := remove_inv h
  unfold Editor.execLua at h2
  rw [std.lua] at h2
  cases h2
  exact ⟨rfl, h1⟩

/-- the handlers in a session -/
theorem ced_handlers (r : CedRun e) : Handlers e := by
  induction r with
  | @start eng env std session cwd args cwdText e h =>
    unfold Editor.new at h
    obtain ⟨w, h1, h⟩ := bind_inv h
    obtain ⟨⟨l, w', err⟩, h2, h⟩ := bind_inv h
    unfold Scripts.prelude at h2
    obtain ⟨w2, h3, h2⟩ := bind_inv h2
    obtain ⟨w3, h4, h2⟩ := bind_inv h2
    cases h2
    cases h
    refine ⟨⟨rfl, fun c h hc => by cases hc⟩, fun c hc => ?_⟩
    rw [(World.sends_debug h4).1, (World.sends_debug h3).1, Assoc.has_iff, (World.start_clients h1).1] at hc
    obtain ⟨v, hv⟩ := hc
    cases hv
  | @join eng env std e e' id r h ih =>
    obtain ⟨hl, w, hw, hc⟩ := add_state std h
    refine ⟨⟨?_, fun c x hx => ?_⟩, fun c hx => ?_⟩
    · rw [hl, (Editor.same_addClient h).session]; exact ih.good.1
    · rw [hl] at hx
      have hx : (e.lua.clients.set id _).get c = some x := hx
      rw [Assoc.get_set] at hx
      split at hx
      · cases hx; exact ⟨.normal, rfl⟩
      · exact ih.good.2 c x hx
    · rw [hc] at hx
      have hx := (clients_join hw c).1 hx
      rw [hl]
      show (e.lua.clients.set id _).has c = true
      rw [Assoc.has_set]
      rcases hx with rfl | hx
      · simp
      · simp [ih.connected c hx]
  | @leave eng env std e e' id r h ih =>
    obtain ⟨hl, hw⟩ := remove_state std h
    refine ⟨⟨?_, fun c x hx => ?_⟩, fun c hx => ?_⟩
    · rw [hl, (Editor.same_removeClient h).session]; exact ih.good.1
    · rw [hl] at hx
      have hx : (e.lua.clients.del id).get c = some x := hx
      rw [Assoc.get_del] at hx
      split at hx
      · cases hx
      · exact ih.good.2 c x hx
    · have hx := (clients_leave (ced_history r) hw c).1 hx
      rw [hl]
      show (e.lua.clients.del id).has c = true
      rw [Assoc.has_del]
      simp [hx.1, ih.connected c hx.2]
  | @line eng env std e e' client line r run clean h ih =>
    have hm := menus_editorRun (ced_run run)
    have hses := (Editor.menus_handle hm h).2.1
    refine ⟨?_, fun c hc => ?_⟩
    · rw [hses]
      exact Editor.handle_keeps (serves_good std e.session) h ih.good
    · have hb : e.core.clients.map.has c = true := by
        rcases Editor.handle_steps (lua_steps std) hm clean h with ⟨hs, _⟩ | ⟨hs, _⟩
        · rw [← Editor.clients_steps hs]; exact hc
        · exact ((clients_leave (ced_history run) hs c).1 hc).2
      exact (Editor.handle_keeps (serves_has std e.session c) h ⟨ih.good, ih.connected c hb⟩).2
  | removed _ ih => exact ⟨ih.good, ih.connected⟩

/-! ## C49 -/

/-- C49: at any time, each connected client has a key handler, in one of the four modes. -/
theorem C49_modes (r : CedRun e) {c : Nat} (hc : e.core.clients.map.has c = true) : ∃ m, InMode e.lua c m := by
  obtain ⟨h, hh⟩ := Assoc.has_iff.1 ((ced_handlers r).connected c hc)
  obtain ⟨m, hm⟩ := (ced_handlers r).good.2 c h hh
  exact ⟨m, h, hh, hm⟩

/-- C49: a client that joins starts in the normal mode, the others keep theirs, and it is sent its status line. -/
theorem C49_join (r : CedRun e) (std : Standard eng env) {id : Nat} (h : e.addClient env id = .ok e') :
    InMode e'.lua id .normal ∧ (∀ c m, c ≠ id → InMode e.lua c m → InMode e'.lua c m) ∧
      e'.core.out.getLast? = some ⟨some [id], .status [(100, str!"[" ++ natStr id ++ str!"@" ++ e.session ++ str!"]")]⟩ := by
  obtain ⟨hl, w, hw, hc⟩ := add_state std h
  refine ⟨⟨_, by rw [hl]; exact Assoc.get_set_self .., rfl⟩, ?_, ?_⟩
  · rintro c m hne ⟨x, hx, hm⟩
    refine ⟨x, ?_, hm⟩
    rw [hl]
    exact (Assoc.get_set_ne _ hne).trans hx
  · rw [hc, (ced_handlers r).good.1]
    show (w.out ++ [_]).getLast? = _
    rw [List.getLast?_append]; rfl

/-- What some keys do to the editor, for a client in a mode: each one that means something does its operation, and the
client gets the hint of the mode it enters and its status line. -/
def keysDo (eng : LuaEngine) (session : Str) (client : Nat) : KeyMode → List KeyEvent → World → R World
  | _, [], w => .ok w
  | m, k :: ks, w => do
    let w ← if m.handles k.display then
        (doOp eng.core w (m.op client k.display)).map (tell client (keyNotes eng session client m k.display))
      else .ok w
    keysDo eng session client (m.next k.display) ks w

/-- C49: the keys of a client never fail: they do what its mode says, one after the other, and change its mode as it
says; the modes of the other clients are the same. -/
theorem C49_keys (std : Standard eng env) {c : Nat} {m : KeyMode} (hm : InMode e.lua c m) (ks : List KeyEvent) :
    (∃ p, Does env e c (.keys ks) = .error p ∧ keysDo eng e.lua.session c m ks e.core = .error p) ∨
    ∃ e', Does env e c (.keys ks) = .ok (e', none) ∧ keysDo eng e.lua.session c m ks e.core = .ok e'.core ∧
      InMode e'.lua c (m.after ks) ∧ (∀ d m', d ≠ c → InMode e.lua d m' → InMode e'.lua d m') ∧
      e'.menus = e.menus ∧ e'.stopped = e.stopped := by
  have key : (∃ p, e.commandKeys env c ks = .error p ∧ keysDo eng e.lua.session c m ks e.core = .error p) ∨
      ∃ e', e.commandKeys env c ks = .ok (e', none) ∧ keysDo eng e.lua.session c m ks e.core = .ok e'.core ∧
      InMode e'.lua c (m.after ks) ∧ (∀ d m', d ≠ c → InMode e.lua d m' → InMode e'.lua d m') := by
    induction ks generalizing e m with
    | nil => exact .inr ⟨e, rfl, rfl, hm, fun _ _ _ h => h⟩
    | cons k ks ih =>
      obtain ⟨l', h1, h2, h3, h4⟩ := C49_key eng hm k e.core
      rw [Editor.commandKeys, keysDo]
      unfold Editor.execLua
      rw [std.lua, h4]
      have go : ∀ w1, e.core = e.core → (
          (∃ p, ({ e with lua := l', core := w1 } : Editor LuaState).commandKeys env c ks = .error p ∧
            keysDo eng e.lua.session c (m.next k.display) ks w1 = .error p) ∨
          ∃ e', ({ e with lua := l', core := w1 } : Editor LuaState).commandKeys env c ks = .ok (e', none) ∧
            keysDo eng e.lua.session c (m.next k.display) ks w1 = .ok e'.core ∧
            InMode e'.lua c (m.after (k :: ks)) ∧ (∀ d m', d ≠ c → InMode e.lua d m' → InMode e'.lua d m')) := by
        intro w1 _
        have := ih (e := { e with lua := l', core := w1 }) h1
        rw [h2] at this
        rcases this with this | ⟨e', a1, a2, a3, a4⟩
        · exact .inl this
        · refine .inr ⟨e', a1, a2, a3, fun d m' hd ⟨x, hx, hm'⟩ => a4 d m' hd ⟨x, ?_, hm'⟩⟩
          exact (h3 d hd).trans hx
      by_cases hh : m.handles k.display
      · rw [if_pos hh, if_pos hh]
        cases hd : doOp eng.core e.core (m.op c k.display) with
        | error p => exact .inl ⟨p, rfl, rfl⟩
        | ok w1 => exact go _ rfl
      · rw [if_neg hh, if_neg hh]
        exact go _ rfl
  rcases key with ⟨p, h1, h2⟩ | ⟨e', h1, h2, h3, h4⟩
  · exact .inl ⟨p, by simp only [Does]; rw [h1]; rfl, h2⟩
  · refine .inr ⟨e', by simp only [Does]; rw [h1]; rfl, h2, h3, h4, (Editor.same_keys h1).menus, (Editor.same_keys h1).stopped⟩

/-- C49: the escape key leads to the normal mode from every mode, and the go-to modes last for one key. -/
theorem C49_escape (m : KeyMode) (k : KeyEvent) (hk : k.display = str!"esc" ∨ m = .moveTo ∨ m = .extendTo) :
    m.next k.display = .normal := by
  rcases hk with h | rfl | rfl
  · rw [h]; cases m <;> rfl
  · rfl
  · rfl

/-! ## The invariants of the editor in whole sessions -/

/-- C28: in every session, each client has a live view and there is a view. -/
theorem C28_session (r : CedRun e) : LiveViews e.core ∧ e.core.views.map ≠ [] := C28_live (ced_history r)

/-- the editor of a server is in a session -/
theorem server_run {s : Server LuaState} (r : CedServer s) : CedRun s.editor ∧ s.editor.stopped = [] ∧ s.index.Nodup ∧
    ∀ c, c ∈ s.index ↔ s.editor.core.clients.map.has c = true := by
  induction r with
  | @start eng env std session cwd args cwdText e h =>
    refine ⟨.start std h, ?_, List.nodup_nil, fun c => ?_⟩
    · show e.stopped = []
      unfold Editor.new at h
      obtain ⟨w, h1, h⟩ := bind_inv h
      obtain ⟨⟨l, w', err⟩, h2, h⟩ := bind_inv h
      cases err with
      | none => cases h; rfl
      | some x => cases h
    · have hn : e.core.clients.map.has c ≠ true := by
        intro hc
        have := (ced_handlers (.start std h)).connected c hc
        have hl : e.lua.clients = [] := by
          unfold Editor.new at h
          obtain ⟨w, h1, h⟩ := bind_inv h
          obtain ⟨⟨l, w', err⟩, h2, h⟩ := bind_inv h
          unfold Scripts.prelude at h2
          obtain ⟨w2, h3, h2⟩ := bind_inv h2
          obtain ⟨w3, h4, h2⟩ := bind_inv h2
          cases h2; cases h; rfl
        rw [hl, Assoc.has_iff] at this
        obtain ⟨v, hv⟩ := this
        cases hv
      exact ⟨fun h => by simp [Server.start] at h, fun h => absurd h hn⟩
  | @event eng env std wr last ev s s' r clean h ih =>
    obtain ⟨hr, hst, hnd, hi⟩ := ih
    have hnd' := nodup_turn h hnd
    unfold Server.turn at h
    obtain ⟨s1, h1, h⟩ := ebind_inv h
    obtain ⟨s2, h2, h⟩ := ebind_inv h
    cases h
    have hh := ced_history hr
    -- the state before the clients that quit are removed
    have mid : CedRun s1.editor ∧ ((s1.editor.stopped = [] ∧ ∀ c, c ∈ s1.index ↔ s1.editor.core.clients.map.has c = true) ∨
        ∃ d, s1.editor.stopped = [d] ∧ ∀ c, (c ≠ d ∧ c ∈ s1.index) ↔ s1.editor.core.clients.map.has c = true) := by
      cases ev with
      | join id =>
        obtain ⟨e1, he, h1⟩ := ebind_inv h1
        cases h1
        have he := lift_ok he
        refine ⟨.join std hr he, .inl ⟨(Editor.same_addClient he).stopped.trans hst, fun c => ?_⟩⟩
        obtain ⟨_, w, hw, hc⟩ := add_state std he
        show c ∈ Server.addIndex s.index id ↔ e1.core.clients.map.has c = true
        rw [hc]
        refine Iff.trans ?_ (clients_join hw c).symm
        rw [← hi]
        unfold Server.addIndex
        split
        · constructor
          · exact .inr
          · rintro (rfl | h)
            · assumption
            · exact h
        · simp [or_comm]
      | leave id =>
        obtain ⟨e1, he, h1⟩ := ebind_inv h1
        obtain ⟨ix, hix, h1⟩ := ebind_inv h1
        cases h1
        have he := lift_ok he
        refine ⟨.leave std hr he, .inl ⟨(Editor.same_removeClient he).stopped.trans hst, fun c => ?_⟩⟩
        obtain ⟨_, hw⟩ := remove_state std he
        show c ∈ ix ↔ e1.core.clients.map.has c = true
        rw [clients_leave hh hw c, (removeIndex_ok hix).2, List.mem_filter, ← hi]
        simp [and_comm]
      | message id line =>
        obtain ⟨⟨e1, resp⟩, he, h1⟩ := ebind_inv h1
        have he := lift_ok he
        dsimp only at h1
        split at h1
        · split at h1
          · cases h1
            have hcl := clean id line rfl
            refine ⟨.line std hr hcl he, ?_⟩
            rcases Editor.handle_steps (lua_steps std) (menus_editorRun (ced_run hr)) hcl he with ⟨hs, hst'⟩ | ⟨hs, hst'⟩
            · refine .inl ⟨hst'.trans hst, fun c => ?_⟩
              rw [hi c]
              exact (iff_of_eq (congrArg (· = true) (Editor.clients_steps hs c))).symm
            · refine .inr ⟨id, ?_, fun c => ?_⟩
              · show e1.stopped = [id]
                rw [hst', hst]; simp
              · rw [hi c]
                exact (clients_leave hh hs c).symm
          · cases h1
        · cases h1
    obtain ⟨_, _, p3, _, p5, p6⟩ := purge_ok h2
    have hed : s'.editor = s1.editor.removedClients.1 := by
      unfold Server.purge at h2
      dsimp only [Editor.removedClients] at h2
      obtain ⟨l, hl, h2⟩ := ebind_inv h2
      cases h2; rfl
    refine ⟨by rw [hed]; exact .removed mid.1, p3, hnd', fun c => ?_⟩
    rw [p5]
    rcases mid.2 with ⟨m1, m2⟩ | ⟨d, m1, m2⟩
    · rw [m1] at p6
      have p6 : s1.index = s'.index := by injection p6
      rw [← p6]
      exact m2 c
    · rw [m1] at p6
      obtain ⟨x, hx, p6⟩ := ebind_inv p6
      have p6 : x = s'.index := by injection p6
      rw [← p6, (removeIndex_ok hx).2, List.mem_filter, ← m2 c]
      simp [and_comm]
  | deliver broken _ ih =>
    unfold Server.deliver
    split <;> exact ih

/-- C68: at any time between two events, the connections the server writes to are the clients of the editor, each once:
a client that left or quit is in neither, and one that joined is in both until then. -/
theorem C68_clients {s : Server LuaState} (r : CedServer s) :
    s.index.Nodup ∧ ∀ c, c ∈ s.index ↔ ∃ ctx, s.editor.core.clients.map.get c = some ctx := by
  obtain ⟨_, _, h, hi⟩ := server_run r
  exact ⟨h, fun c => (hi c).trans Assoc.has_iff⟩

/-- The client of an event. -/
def clientOf : ServerEvent → Nat
  | .join c => c
  | .leave c => c
  | .message c _ => c

/-- C68: the events of connected clients, and new connections, never make the server miss a connection: a crash comes
from the editor, or from a response that cannot be written. -/
theorem C68_found {s : Server LuaState} (r : CedServer s) (std : Standard eng env) {wr : Bool} {ev : ServerEvent}
    (clean : ∀ c line, ev = .message c line → CleanLine env line)
    (hc : (∃ c, ev = .join c) ∨ clientOf ev ∈ s.index) : s.turn env wr ev ≠ .error .missing := by
  obtain ⟨hr, hst, hnd, hi⟩ := server_run r
  have pg : ∀ s1 : Server LuaState, (s1.editor.stopped = [] ∨ ∃ d, s1.editor.stopped = [d] ∧ d ∈ s1.index) →
      s1.purge ≠ .error .missing := by
    intro s1 h hp
    unfold Server.purge at hp
    dsimp only [Editor.removedClients] at hp
    rcases h with h | ⟨d, h, hd⟩
    · rw [h] at hp; cases hp
    · rw [h] at hp
      have : [d].foldlM Server.removeIndex s1.index = .ok (s1.index.filter (· ≠ d)) := by
        simp [List.foldlM, Server.removeIndex, hd]
      rw [this] at hp
      cases hp
  have lf : ∀ {α : Type} {x : R α}, Server.lift x ≠ .error .missing := by
    intro α x; cases x <;> simp [Server.lift]
  have bind : ∀ {α β : Type} {x : Except Crash α} {f : α → Except Crash β}, x ≠ .error .missing →
      (∀ a, x = .ok a → f a ≠ .error .missing) → (x >>= f) ≠ .error .missing := by
    intro α β x f h1 h2 h
    cases x with
    | error p =>
      apply h1
      have : (Except.error p : Except Crash β) = .error .missing := h
      injection this with this; rw [this]
    | ok a => exact h2 a rfl h
  unfold Server.turn
  refine bind ?_ fun s1 h1 => bind ?_ fun s2 h2 => ?_
  · cases ev with
    | join id => exact bind lf fun e1 _ h => by cases h
    | leave id =>
      have hc : id ∈ s.index := by rcases hc with ⟨c, hc⟩ | hc; cases hc; exact hc
      refine bind lf fun e1 _ => bind ?_ fun ix _ h => by cases h
      unfold Server.removeIndex; rw [if_pos hc]; simp
    | message id line =>
      have hc : id ∈ s.index := by rcases hc with ⟨c, hc⟩ | hc; cases hc; exact hc
      refine bind lf fun e1 _ => ?_
      obtain ⟨e1, resp⟩ := e1
      dsimp only
      rw [if_pos hc]
      split <;> simp [pure, Except.pure]
  · apply pg
    cases ev with
    | join id =>
      obtain ⟨e1, he, h1⟩ := ebind_inv h1
      cases h1
      exact .inl ((Editor.same_addClient (lift_ok he)).stopped.trans hst)
    | leave id =>
      obtain ⟨e1, he, h1⟩ := ebind_inv h1
      obtain ⟨ix, hix, h1⟩ := ebind_inv h1
      cases h1
      exact .inl ((Editor.same_removeClient (lift_ok he)).stopped.trans hst)
    | message id line =>
      have hc : id ∈ s.index := by rcases hc with ⟨c, hc⟩ | hc; cases hc; exact hc
      obtain ⟨⟨e1, resp⟩, he, h1⟩ := ebind_inv h1
      dsimp only at h1
      rw [if_pos hc] at h1
      split at h1
      · cases h1
        rcases Editor.handle_steps (lua_steps std) (menus_editorRun (ced_run hr)) (clean id line rfl) (lift_ok he) with
          ⟨_, hs⟩ | ⟨_, hs⟩
        · exact .inl (hs.trans hst)
        · refine .inr ⟨id, ?_, hc⟩
          show e1.stopped = [id]
          rw [hs, hst]; simp
      · cases h1
  · simp [pure, Except.pure]

/-- C28, in the server: at any time, each connected client has a context with a live view. -/
theorem C28_server {s : Server LuaState} (r : CedServer s) {c : Nat} (hc : c ∈ s.index) :
    ∃ ctx, s.editor.core.clients.map.get c = some ctx ∧ s.editor.core.views.map.get ctx.view.key = some ctx.view ∧
      ctx.view.buffers ≠ [] ∧ ∀ b ∈ ctx.view.buffers, ∃ buf, s.editor.core.buffers.get b = some buf := by
  obtain ⟨hr, _, _, hi⟩ := server_run r
  obtain ⟨ctx, hctx⟩ := Assoc.has_iff.1 ((hi c).1 hc)
  exact ⟨ctx, hctx, (C28_session hr).1 c ctx hctx⟩

/-- C49, in the server: at any time, each connected client is in one of the modes. -/
theorem C49_server {s : Server LuaState} (r : CedServer s) {c : Nat} (hc : c ∈ s.index) :
    ∃ m, InMode s.editor.lua c m := by
  obtain ⟨hr, _, _, hi⟩ := server_run r
  exact C49_modes hr ((hi c).1 hc)

/-! ### A concrete session -/

/-- `pairs` in the order of the source, `exec` says its source -/
def engA : LuaEngine where
  core := envA
  pairs := id
  nilError := str!"nil"
  path := str!"?.lua"
  exec := fun c s l w => (w.message envA (some c) s).map fun w => (l, w, none)

def cedEnv : EditorEnv LuaState where
  core := envA
  lua := Scripts.lua engA
  compile := fun _ => none
  files := fun _ => []
  parse := JsonText.parse
  lineError := fun _ => str!"no"
  paramsError := fun _ => str!"no"

theorem standardA : Standard engA cedEnv where
  lua := rfl
  core := rfl
  tame := by
    intro c s l w l' w' m h
    obtain ⟨w1, h1, h2⟩ := map_inv h
    cases h2
    exact ⟨rfl, .one (op := .message (some c) s) (Editor.tidily_free rfl (by simp)) h1⟩
  follows := fun _ => rfl

def cleanLineB (line : Str) : Bool :=
  match (JsonText.parse line).bind Request.decode with
  | none => true
  | some q =>
    (match Params.get Params.edit q with | .ok (some p) => !(p.1.contains '{') | _ => true) &&
    (match Params.get Params.menuSelect q with | .ok (some p) => !(p.2.contains '{') | _ => true)

theorem cleanLineB_ok {line : Str} (h : cleanLineB line = true) : CleanLine cedEnv line := by
  intro q hq
  unfold cleanLineB at h
  have hq : (JsonText.parse line).bind Request.decode = some q := hq
  rw [hq] at h
  simp only [Bool.and_eq_true] at h
  refine ⟨fun n s _ hp => ?_, fun n s _ hp _ => ?_⟩
  · have := h.1; rw [hp] at this; simpa using this
  · have := h.2; rw [hp] at this; simpa using this

def startCed : Except Crash (Server LuaState) :=
  Server.lift ((Editor.new cedEnv ⟨str!"s", []⟩ (Scripts.prelude engA) str!"s" [] [] []).map Server.start)

def cleanEvent : ServerEvent → Bool
  | .message _ l => cleanLineB l
  | _ => true

/-- the server after some events, each with a clean line, two deliveries after each -/
def cedEvents (evs : List ServerEvent) : Except Crash (Server LuaState) := do
  let s ← startCed
  evs.foldlM (fun s ev => do
    if cleanEvent ev then
      let (s, _) ← s.turn cedEnv true ev
      return (s.deliver []).deliver []
    else .error .write) s

theorem cedEvents_run {evs : List ServerEvent} {s : Server LuaState} (h : cedEvents evs = .ok s) : CedServer s := by
  unfold cedEvents at h
  obtain ⟨s0, h0, hevs⟩ := ebind_inv h
  clear h
  have start : CedServer s0 := by
    unfold startCed at h0
    obtain ⟨e0, he, hs⟩ := map_inv (lift_ok h0)
    rw [← hs]; exact .start standardA he
  clear h0
  induction evs generalizing s0 with
  | nil => cases hevs; exact start
  | cons ev evs ih =>
    rw [List.foldlM_cons] at hevs
    obtain ⟨s1, h1, hevs⟩ := ebind_inv hevs
    refine ih _ hevs ?_
    split at h1
    · rename_i hb
      obtain ⟨⟨s2, x⟩, h2, h1⟩ := ebind_inv h1
      cases h1
      refine .deliver _ (.deliver _ (.event standardA start ?_ h2))
      rintro c line rfl
      exact cleanLineB_ok hb
    · cases h1

def keysLine (ks : List KeyEvent) : Str := (Call.request (.number 1) (.keys ks)).encode.write
def press (c : Char) : KeyEvent := ⟨false, false, false, .char c⟩

/-- two clients open a file; the first one presses `g`, the second one `i`, and the third joins and quits -/
def cedA : List ServerEvent :=
  [.join 1, .join 2, .message 1 editLine, .message 1 (keysLine [press 'g']), .message 2 (keysLine [press 'i', press 'h']),
   .join 3, .message 3 quitLine]

example : (cedEvents cedA).toOption.map (fun s => (s.index, s.editor.lua.clients.get 1, s.editor.lua.clients.get 2)) =
    some ([1, 2], some ⟨KeyMode.moveTo.stack, some str!"g", some str!"g"⟩,
      some ⟨KeyMode.insertion.stack, some str!"i", some str!"I"⟩) := by decide +kernel

example : ∃ s, CedServer s ∧ s.index = [1, 2] := by
  have h : (cedEvents cedA).toOption.map (fun s => s.index) = some [1, 2] := by decide +kernel
  cases hs : cedEvents cedA with
  | error p => rw [hs] at h; cases h
  | ok s => rw [hs] at h; exact ⟨s, cedEvents_run hs, by injection h⟩

/-- after `g` and `l` the client is back in the normal mode at the end of its line -/
example : (cedEvents [.join 1, .message 1 editLine, .message 1 (keysLine [press 'g', press 'l'])]).toOption.map (fun s =>
    (s.editor.lua.clients.get 1, (s.editor.core.clients.map.get 1).bind fun ctx =>
      (ctx.selections.get ctx.view.key).map fun m => m.map fun x => x.2.map fun s => s.cursor)) =
    some (some ⟨KeyMode.normal.stack, some str!"l", some str!"N"⟩, some [[4]]) := by decide +kernel

end Ced.Props

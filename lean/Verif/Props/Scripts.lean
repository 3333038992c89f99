import Verif.Spec.Scripts
import Verif.Props.MenuSelect
import Verif.Props.CoreOut

/-! # The key handler and the scripts: C49 -/

namespace Ced.Props
open Ced Ced.Spec Ced.Scripts

/-- No key is called `default`, so it is not found among the mappings by its name. -/
theorem display_ne_default (k : KeyEvent) : k.display ≠ str!"default" := by
  obtain ⟨c, a, s, k⟩ := k
  cases c <;> cases a <;> cases s <;> cases k <;> simp [KeyEvent.display, Key.display]

theorem modes_get : modes.get str!"normal" = some modes[0].2 ∧ modes.get str!"insertion" = some modes[1].2 ∧
    modes.get str!"moveto" = some modes[2].2 ∧ modes.get str!"extendto" = some modes[3].2 := by decide

/-- the mode as written in the script -/
def cfg : KeyMode → Mode
  | .normal => modes[0].2
  | .insertion => modes[1].2
  | .moveTo => modes[2].2
  | .extendTo => modes[3].2

/-- the current mode of a handler in a mode -/
theorem curMode_stack {h : LuaClient} {m : KeyMode} (hs : h.modeStack = m.stack) : curMode h = some (cfg m) := by
  unfold curMode
  rw [hs]
  cases m
  · exact modes_get.1
  · exact modes_get.2.1
  · exact modes_get.2.2.1
  · exact modes_get.2.2.2

theorem cfg_name (m : KeyMode) : (cfg m).name = m.shown := by cases m <;> rfl

/-- the hint shown when entering a mode -/
def hintOf (eng : LuaEngine) : KeyMode → List Note
  | .normal => []
  | .insertion => []
  | .moveTo => (modeHint eng str!"moveto").toList
  | .extendTo => (modeHint eng str!"extendto").toList

/-- the function found for a key in a mode -/
def foundFn (m : KeyMode) (k : Str) : Option KeyFn :=
  match m with
  | .normal =>
    if k = str!"i" then some (.enterMode str!"insertion") else if k = str!"g" then some (.enterMode str!"moveto")
    else if k = str!"s-g" then some (.enterMode str!"extendto")
    else if k = str!"h" then some (.move .left false) else if k = str!"j" then some (.move .down false)
    else if k = str!"k" then some (.move .up false) else if k = str!"l" then some (.move .right false)
    else if k = str!"s-h" then some (.move .left true) else if k = str!"s-j" then some (.move .down true)
    else if k = str!"s-k" then some (.move .up true) else if k = str!"s-l" then some (.move .right true)
    else if k = str!"m" then some (.message str!"hello!") else if k = str!"e" then some (.error str!"oops!")
    else if k = str!"d" then some .deleteSelection else none
  | .insertion => if k = str!"esc" then some .exitMode else none
  | .moveTo => if k = str!"h" then some (.goto .lineBegin false) else if k = str!"l" then some (.goto .lineEnd false)
      else some .exitMode
  | .extendTo => if k = str!"h" then some (.goto .lineBegin true) else if k = str!"l" then some (.goto .lineEnd true)
      else some .exitMode

theorem ite_inv {p : Prop} [Decidable p] {α : Type} {a b c : α} (h : (if p then a else b) = c) :
    (p ∧ a = c) ∨ (¬ p ∧ b = c) := by
  by_cases hp : p
  · rw [if_pos hp] at h; exact .inl ⟨hp, h⟩
  · rw [if_neg hp] at h; exact .inr ⟨hp, h⟩

theorem find_step {k key : Str} {d : Option Str} {f : KeyFn} {l : List Mapping} {o : Option KeyFn} :
    ((((⟨key, d, f⟩ : Mapping) :: l).find? fun m => m.key = k).map (·.fn)).or o =
      if k = key then some f else ((l.find? fun m => m.key = k).map (·.fn)).or o := by
  by_cases h : k = key
  · subst h; simp
  · have h' : ¬ key = k := fun e => h e.symm
    simp [h, h']

theorem found (m : KeyMode) (k : Str) :
    (((cfg m).mappings.find? fun x => x.key = k).map (·.fn)).or (cfg m).fallback = foundFn m k := by
  cases m <;> simp only [cfg, modes, gotoMappings, List.getElem_cons_zero, List.getElem_cons_succ, find_step] <;>
    simp only [List.find?_nil, Option.map_none, Option.none_or] <;> rfl

/-- what is sent to a client besides the effect of a key -/
def keyNotes (eng : LuaEngine) (session : Str) (client : Nat) (m : KeyMode) (k : Str) : List Note :=
  (if m.next k ≠ m then hintOf eng (m.next k) else []) ++ [statusLine session client k (m.next k)]

/-- the world after an optional operation -/
def doOp (env : Env) (w : World) : Option CoreOp → R World
  | none => .ok w
  | some op => op.run env w

/-- queue notifications to a client -/
def tell (client : Nat) (notes : List Note) (w : World) : World :=
  { w with out := w.out ++ notes.map fun n => ⟨some [client], n⟩ }

theorem tell_nil (client : Nat) (w : World) : tell client [] w = w := by
  unfold tell; simp

theorem tell_notify (client : Nat) (n : Note) (ns : List Note) (w : World) :
    (tell client ns w).notify client n = tell client (ns ++ [n]) w := by
  simp [tell, World.notify, World.broadcast]

/-- the function of a key does what the specification says -/
theorem run_found {eng : LuaEngine} {client : Nat} {h : LuaClient} {m : KeyMode} (hs : h.modeStack = m.stack) (k : Str)
    {fn : KeyFn} (hf : foundFn m k = some fn) (w : World) :
    ∃ h' : LuaClient, h'.modeStack = (m.next k).stack ∧
      runFn eng client h w fn = (doOp eng.core w (m.op client k)).map fun w1 =>
        (h', tell client (if m.next k ≠ m then hintOf eng (m.next k) else []) w1) := by
  have quiet : ∀ (x : R World), (x >>= fun w1 => pure (h, w1) : R (LuaClient × World)) = x.map fun w1 => (h, tell client [] w1) := by
    intro x; cases x <;> simp [Except.map, tell_nil, bind, Except.bind, pure, Except.pure]
  have quiet' : ∀ (x : R World), (x >>= fun w1 => pure (exitMode h, w1) : R (LuaClient × World)) =
      x.map fun w1 => (exitMode h, tell client [] w1) := by
    intro x; cases x <;> simp [Except.map, tell_nil, bind, Except.bind, pure, Except.pure]
  have henter : ∀ mode : Str, enterMode eng client h w mode =
      ({ h with modeStack := h.modeStack ++ [mode] }, tell client (modeHint eng mode).toList w) := by
    intro mode
    unfold enterMode
    cases modeHint eng mode with
    | none => rw [Option.toList_none, tell_nil]
    | some n => rfl
  cases m
  · unfold foundFn at hf; dsimp only at hf
    rcases ite_inv hf with ⟨hk, hf⟩ | ⟨n1, hf⟩
    · subst hk; cases hf
      exact ⟨(enterMode eng client h w str!"insertion").1, by simp only [enterMode, hs]; rfl,
        by rw [runFn]; show _ = Except.ok (_, tell client [] w); rw [tell_nil]; rfl⟩
    rcases ite_inv hf with ⟨hk, hf⟩ | ⟨n2, hf⟩
    · subst hk; cases hf
      exact ⟨(enterMode eng client h w str!"moveto").1, by simp only [enterMode, hs]; rfl,
        by rw [runFn, henter]; rfl⟩
    rcases ite_inv hf with ⟨hk, hf⟩ | ⟨n3, hf⟩
    · subst hk; cases hf
      exact ⟨(enterMode eng client h w str!"extendto").1, by simp only [enterMode, hs]; rfl,
        by rw [runFn, henter]; rfl⟩
    rcases ite_inv hf with ⟨hk, hf⟩ | ⟨n4, hf⟩
    · subst hk; cases hf; exact ⟨h, hs, quiet _⟩
    rcases ite_inv hf with ⟨hk, hf⟩ | ⟨n5, hf⟩
    · subst hk; cases hf; exact ⟨h, hs, quiet _⟩
    rcases ite_inv hf with ⟨hk, hf⟩ | ⟨n6, hf⟩
    · subst hk; cases hf; exact ⟨h, hs, quiet _⟩
    rcases ite_inv hf with ⟨hk, hf⟩ | ⟨n7, hf⟩
    · subst hk; cases hf; exact ⟨h, hs, quiet _⟩
    rcases ite_inv hf with ⟨hk, hf⟩ | ⟨n8, hf⟩
    · subst hk; cases hf; exact ⟨h, hs, quiet _⟩
    rcases ite_inv hf with ⟨hk, hf⟩ | ⟨n9, hf⟩
    · subst hk; cases hf; exact ⟨h, hs, quiet _⟩
    rcases ite_inv hf with ⟨hk, hf⟩ | ⟨n10, hf⟩
    · subst hk; cases hf; exact ⟨h, hs, quiet _⟩
    rcases ite_inv hf with ⟨hk, hf⟩ | ⟨n11, hf⟩
    · subst hk; cases hf; exact ⟨h, hs, quiet _⟩
    rcases ite_inv hf with ⟨hk, hf⟩ | ⟨n12, hf⟩
    · subst hk; cases hf; exact ⟨h, hs, quiet _⟩
    rcases ite_inv hf with ⟨hk, hf⟩ | ⟨n13, hf⟩
    · subst hk; cases hf; exact ⟨h, hs, quiet _⟩
    rcases ite_inv hf with ⟨hk, hf⟩ | ⟨n14, hf⟩
    · subst hk; cases hf
      refine ⟨h, hs, ?_⟩
      show (w.deleteSelection eng.core client >>= fun x => pure (h, x.1) : R _) =
        ((w.deleteSelection eng.core client).map Prod.fst).map fun w1 => (h, tell client [] w1)
      cases w.deleteSelection eng.core client <;> simp [Except.map, tell_nil, bind, Except.bind, pure, Except.pure]
    · cases hf
  · unfold foundFn at hf; dsimp only at hf
    rcases ite_inv hf with ⟨hk, hf⟩ | ⟨n15, hf⟩
    · subst hk; cases hf
      refine ⟨exitMode h, by simp only [exitMode, hs]; rfl, ?_⟩
      show _ = Except.ok (_, tell client [] w)
      rw [tell_nil]; rfl
    · cases hf
  all_goals
    unfold foundFn at hf; dsimp only at hf
    rcases ite_inv hf with ⟨hk, hf⟩ | ⟨n16, hf⟩
    · subst hk; cases hf; exact ⟨exitMode h, by simp only [exitMode, hs]; rfl, quiet' _⟩
    rcases ite_inv hf with ⟨hk, hf⟩ | ⟨n17, hf⟩
    · subst hk; cases hf; exact ⟨exitMode h, by simp only [exitMode, hs]; rfl, quiet' _⟩
    · cases hf
      refine ⟨exitMode h, by simp only [exitMode, hs]; rfl, ?_⟩
      simp only [KeyMode.op, if_neg n16, if_neg n17, doOp]
      show _ = Except.ok (_, tell client [] w)
      rw [tell_nil]; rfl

instance (m : KeyMode) (k : Str) : Decidable (m.handles k) := by unfold KeyMode.handles; infer_instance

/-- a key without a function has no meaning -/
theorem not_found {m : KeyMode} {k : Str} : foundFn m k = none ↔ ¬ m.handles k := by
  cases m
  · constructor
    · intro hf
      unfold foundFn at hf; dsimp only at hf
      rcases ite_inv hf with ⟨_, hf⟩ | ⟨n1, hf⟩
      · cases hf
      rcases ite_inv hf with ⟨_, hf⟩ | ⟨n2, hf⟩
      · cases hf
      rcases ite_inv hf with ⟨_, hf⟩ | ⟨n3, hf⟩
      · cases hf
      rcases ite_inv hf with ⟨_, hf⟩ | ⟨n4, hf⟩
      · cases hf
      rcases ite_inv hf with ⟨_, hf⟩ | ⟨n5, hf⟩
      · cases hf
      rcases ite_inv hf with ⟨_, hf⟩ | ⟨n6, hf⟩
      · cases hf
      rcases ite_inv hf with ⟨_, hf⟩ | ⟨n7, hf⟩
      · cases hf
      rcases ite_inv hf with ⟨_, hf⟩ | ⟨n8, hf⟩
      · cases hf
      rcases ite_inv hf with ⟨_, hf⟩ | ⟨n9, hf⟩
      · cases hf
      rcases ite_inv hf with ⟨_, hf⟩ | ⟨n10, hf⟩
      · cases hf
      rcases ite_inv hf with ⟨_, hf⟩ | ⟨n11, hf⟩
      · cases hf
      rcases ite_inv hf with ⟨_, hf⟩ | ⟨n12, hf⟩
      · cases hf
      rcases ite_inv hf with ⟨_, hf⟩ | ⟨n13, hf⟩
      · cases hf
      rcases ite_inv hf with ⟨_, hf⟩ | ⟨n14, hf⟩
      · cases hf
      have f1 : KeyMode.motions.find? (fun m => m.1 = k) = none := by
        rw [List.find?_eq_none]
        intro x hx
        simp only [KeyMode.motions, List.mem_cons, List.not_mem_nil, or_false] at hx
        rcases hx with rfl | rfl | rfl | rfl <;> simp only [decide_eq_true_eq] <;> intro e <;> subst e <;> contradiction
      have f2 : KeyMode.motions.find? (fun m => str!"s-" ++ m.1 = k) = none := by
        rw [List.find?_eq_none]
        intro x hx
        simp only [KeyMode.motions, List.mem_cons, List.not_mem_nil, or_false] at hx
        rcases hx with rfl | rfl | rfl | rfl <;> simp only [decide_eq_true_eq] <;> intro e <;> subst e <;> contradiction
      unfold KeyMode.handles KeyMode.next KeyMode.op
      dsimp only
      rw [if_neg n1, if_neg n2, if_neg n3, f1, f2]
      dsimp only
      rw [if_neg n12, if_neg n13, if_neg n14]
      simp
    · intro hn
      cases hf : foundFn .normal k with
      | none => rfl
      | some fn =>
        exfalso
        apply hn
        unfold foundFn at hf; dsimp only at hf
        rcases ite_inv hf with ⟨rfl, hf⟩ | ⟨n1, hf⟩
        · decide
        rcases ite_inv hf with ⟨rfl, hf⟩ | ⟨n1, hf⟩
        · decide
        rcases ite_inv hf with ⟨rfl, hf⟩ | ⟨n1, hf⟩
        · decide
        rcases ite_inv hf with ⟨rfl, hf⟩ | ⟨n1, hf⟩
        · decide
        rcases ite_inv hf with ⟨rfl, hf⟩ | ⟨n1, hf⟩
        · decide
        rcases ite_inv hf with ⟨rfl, hf⟩ | ⟨n1, hf⟩
        · decide
        rcases ite_inv hf with ⟨rfl, hf⟩ | ⟨n1, hf⟩
        · decide
        rcases ite_inv hf with ⟨rfl, hf⟩ | ⟨n1, hf⟩
        · decide
        rcases ite_inv hf with ⟨rfl, hf⟩ | ⟨n1, hf⟩
        · decide
        rcases ite_inv hf with ⟨rfl, hf⟩ | ⟨n1, hf⟩
        · decide
        rcases ite_inv hf with ⟨rfl, hf⟩ | ⟨n1, hf⟩
        · decide
        rcases ite_inv hf with ⟨rfl, hf⟩ | ⟨n1, hf⟩
        · decide
        rcases ite_inv hf with ⟨rfl, hf⟩ | ⟨n1, hf⟩
        · decide
        rcases ite_inv hf with ⟨rfl, hf⟩ | ⟨n1, hf⟩
        · decide
        cases hf
  · unfold foundFn KeyMode.handles KeyMode.next KeyMode.op
    dsimp only
    by_cases h : k = str!"esc" <;> simp [h]
  all_goals
    unfold KeyMode.handles
    refine iff_of_false ?_ ?_
    · unfold foundFn; dsimp only
      intro h
      rcases ite_inv h with ⟨_, h⟩ | ⟨_, h⟩
      · cases h
      rcases ite_inv h with ⟨_, h⟩ | ⟨_, h⟩ <;> cases h
    · rw [Classical.not_not]; left; simp [KeyMode.next]

/-- C49: a key of a client in a mode never fails; it does to the editor what the mode says, changes the mode as it says
(and that of nobody else), and, when the key means something, sends the client the hint of the mode it enters and its
status line; a key without a meaning does nothing at all. -/
theorem C49_key (eng : LuaEngine) {l : LuaState} {client : Nat} {m : KeyMode} (hm : InMode l client m) (k : KeyEvent) (w : World) :
    ∃ l', InMode l' client (m.next k.display) ∧ l'.session = l.session ∧
      (∀ c, c ≠ client → l'.clients.get c = l.clients.get c) ∧
      (Scripts.lua eng).key client k l w =
        if m.handles k.display then (doOp eng.core w (m.op client k.display)).map fun w1 =>
          (l', tell client (keyNotes eng l.session client m k.display) w1, none)
        else .ok (l', w, none) := by
  obtain ⟨h, hg, hs⟩ := hm
  show ∃ l' : LuaState, _ ∧ _ ∧ _ ∧ handleKey eng client k l w = _
  unfold handleKey
  rw [hg]
  dsimp only
  rw [curMode_stack hs]
  dsimp only
  rw [found]
  cases hf : foundFn m k.display with
  | none =>
    have hn := not_found.1 hf
    refine ⟨l, ⟨h, hg, ?_⟩, rfl, fun _ _ => rfl, ?_⟩
    · unfold KeyMode.handles at hn
      rw [not_or, Classical.not_not] at hn
      rw [hn.1]; exact hs
    · rw [if_neg hn]
  | some fn =>
    have hh : m.handles k.display := by
      by_cases hh : m.handles k.display
      · exact hh
      · rw [not_found.2 hh] at hf; cases hf
    obtain ⟨h', h1, h4⟩ := run_found (eng := eng) (client := client) hs k.display hf w
    let h'' : LuaClient := { h' with keysText := some k.display, modeText := some (m.next k.display).shown }
    refine ⟨{ l with clients := l.clients.set client h'' },
      ⟨_, Assoc.get_set_self .., h1⟩, rfl, fun c hc => Assoc.get_set_ne _ hc, ?_⟩
    rw [if_pos hh]
    dsimp only
    rw [h4]
    cases doOp eng.core w (m.op client k.display) with
    | error p => rfl
    | ok w1 =>
      simp only [Except.map, bind, Except.bind]
      have hc : curMode { h' with keysText := some k.display } = some (cfg (m.next k.display)) := curMode_stack h1
      rw [hc]
      simp only [cfg_name, pushStatus, tell_notify]
      rfl

end Ced.Props

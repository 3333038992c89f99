import Verif.Proofs.Private
import Verif.Props.Session
import Verif.Props.ConnectionServer
import Verif.Props.UserScreen

/-! # C93: who is told what -/

namespace Ced.Props
open Ced Ced.Spec Scripts
variable {L : Type} {eng : LuaEngine}

/-! ## What an event queues -/

/-- C93: whatever a client does (join, leave, or send any line), what is queued is for that client alone, but for the
views of those that see a change: nobody else gets its messages, errors, hints, menus or status lines. -/
theorem C93_private {env : EditorEnv L} (hd : Discreet env.lua) {s s' : Server L} {ev : ServerEvent} {wr last : Bool}
    (h : s.turn env wr ev = .ok (s', last)) : OnlyFor (clientOf ev) s.editor.core s'.editor.core := by
  unfold Server.turn at h
  obtain ⟨s1, h1, h⟩ := ebind_inv h
  obtain ⟨s2, h2, h⟩ := ebind_inv h
  cases h
  obtain ⟨_, _, _, _, p3, _⟩ := purge_ok h2
  rw [p3]
  cases ev with
  | join d =>
    simp only [Server.react] at h1
    obtain ⟨e, h3, h1⟩ := ebind_inv h1
    cases h1
    exact Editor.addClient_only hd (lift_ok h3)
  | leave d =>
    simp only [Server.react] at h1
    obtain ⟨e, h3, h1⟩ := ebind_inv h1
    obtain ⟨i, _, h1⟩ := ebind_inv h1
    cases h1
    exact Editor.removeClient_only hd (lift_ok h3)
  | message d line =>
    simp only [Server.react] at h1
    obtain ⟨⟨e, r⟩, h3, h1⟩ := ebind_inv h1
    dsimp only at h1
    split at h1
    · split at h1
      · cases h1
        exact Editor.handle_only hd (lift_ok h3)
      · cases h1
    · cases h1

/-- the functions bound to keys notify the client whose key it is -/
theorem runFn_only {client : Nat} {h h' : LuaClient} {w w' : World} {fn : KeyFn}
    (hr : runFn eng client h w fn = .ok (h', w')) : OnlyFor client w w' := by
  cases fn with
  | enterMode mode =>
    simp only [runFn, enterMode] at hr
    cases hr
    split
    · exact .notify _ _
    · exact .refl _
  | exitMode => cases hr; exact .refl _
  | move dir extend => obtain ⟨w1, h1, hr⟩ := bind_inv hr; cases hr; exact (World.sends_move h1).only
  | goto dir extend => obtain ⟨w1, h1, hr⟩ := bind_inv hr; cases hr; exact (World.sends_move h1).only
  | message text => obtain ⟨w1, h1, hr⟩ := bind_inv hr; cases hr; exact World.message_only h1
  | error text => obtain ⟨w1, h1, hr⟩ := bind_inv hr; cases hr; exact World.error_only h1
  | deleteSelection =>
    obtain ⟨⟨w1, o⟩, h1, hr⟩ := bind_inv hr
    cases hr
    exact (World.sends_deleteSelection h1).only

/-- C93: the scripts of ced notify the client they run for and nobody else, provided the scripts that clients send in
`exec` requests do. -/
theorem C93_scripts (hx : ∀ c s l w l' w' m, eng.exec c s l w = .ok (l', w', m) → OnlyFor c w w') :
    Discreet (Scripts.lua eng) := by
  refine ⟨?_, ?_, ?_, hx⟩
  · intro c l w l' w' m h
    cases h
    exact .notify _ _
  · intro c l w l' w' m h
    cases h
    exact .refl _
  · intro c k l w l' w' m h
    have h : handleKey eng c k l w = .ok (l', w', m) := h
    unfold handleKey at h
    split at h
    · cases h; exact .refl _
    split at h
    · cases h; exact .refl _
    split at h
    · cases h; exact .refl _
    obtain ⟨⟨h1, w1⟩, hf, h⟩ := bind_inv h
    dsimp only at h
    have o := runFn_only hf
    split at h
    · cases h; exact o
    · cases h; exact o.trans (.notify _ _)

/-! ## What a client is written -/

/-- The notifications that are not views. -/
def nonViews (l : List Note) : List Note := l.filter fun n => match n with | .view _ => false | _ => true

theorem nonViews_append (a b : List Note) : nonViews (a ++ b) = nonViews a ++ nonViews b := List.filter_append ..

theorem mem_notesFor {c : Nat} {bs : List Broadcast} {n : Note} (h : n ∈ notesFor c bs) :
    ∃ b ∈ bs, Addressed b c ∧ b.note = n := by
  unfold notesFor at h
  obtain ⟨b, hb, rfl⟩ := List.mem_map.1 h
  obtain ⟨h1, h2⟩ := List.mem_filter.1 hb
  exact ⟨b, h1, by simpa using h2, rfl⟩

theorem meant_other {c d : Nat} (hcd : c ≠ d) {b : Broadcast} (h : MeantFor d b) (ha : Addressed b c) :
    ∃ items, b.note = .view items := by
  rcases h with h | ⟨_, items, rfl⟩
  · unfold Addressed at ha
    rw [h] at ha
    rcases ha with ha | ⟨l, ha, hm⟩
    · cases ha
    · cases ha
      exact absurd (List.mem_singleton.1 hm) hcd
  · exact ⟨items, rfl⟩

/-- what is for another brings a client views only -/
theorem only_other {c d : Nat} (hcd : c ≠ d) {w w' : World} (h : OnlyFor d w w') :
    nonViews (notesFor c w'.out) = nonViews (notesFor c w.out) := by
  obtain ⟨new, e, hp⟩ := h
  rw [e, notesFor_append, nonViews_append]
  have : nonViews (notesFor c new) = [] := by
    unfold nonViews
    rw [List.filter_eq_nil_iff]
    intro n hn
    obtain ⟨b, hb, ha, rfl⟩ := mem_notesFor hn
    obtain ⟨items, hi⟩ := meant_other hcd (hp b hb) ha
    simp [hi]
  rw [this, List.append_nil]

theorem sends_nonViews {c : Nat} {w w' : World} (h : World.Sends w w') :
    nonViews (notesFor c w'.out) = nonViews (notesFor c w.out) :=
  only_other (d := c + 1) (by omega) h.only

/-- A schedule in which every script is discreet. -/
def DiscreetSteps (steps : List (Server.Step L)) : Prop :=
  ∀ env wr ev, Server.Step.event env wr ev ∈ steps → Discreet env.lua

theorem only_prefix {d : Nat} {w w' : World} (h : OnlyFor d w w') : w.out <+: w'.out := by
  obtain ⟨new, e, _⟩ := h
  exact ⟨new, e.symm⟩

theorem discreet_appending {lua : Lua L} (h : Discreet lua) : Appending lua :=
  ⟨fun _ _ _ _ _ _ x => only_prefix (h.1 _ _ _ _ _ _ x), fun _ _ _ _ _ _ x => only_prefix (h.2.1 _ _ _ _ _ _ x),
    fun _ _ _ _ _ _ _ x => only_prefix (h.2.2.1 _ _ _ _ _ _ _ x),
    fun _ _ _ _ _ _ _ x => only_prefix (h.2.2.2 _ _ _ _ _ _ _ x)⟩

/-- responses are written to those who send lines -/
theorem turn_responses {env : EditorEnv L} {s s' : Server L} {ev : ServerEvent} {wr last : Bool}
    (h : s.turn env wr ev = .ok (s', last)) {c : Nat} (hc : ∀ line, ev ≠ .message c line) (r : Response)
    (hm : (c, Wire.response r) ∈ s'.written) : (c, Wire.response r) ∈ s.written := by
  unfold Server.turn at h
  obtain ⟨s1, h1, h⟩ := ebind_inv h
  obtain ⟨s2, h2, h⟩ := ebind_inv h
  cases h
  rw [(purge_ok h2).1] at hm
  cases ev with
  | join d =>
    simp only [Server.react] at h1
    obtain ⟨e, h3, h1⟩ := ebind_inv h1
    cases h1
    exact hm
  | leave d =>
    simp only [Server.react] at h1
    obtain ⟨e, h3, h1⟩ := ebind_inv h1
    obtain ⟨i, _, h1⟩ := ebind_inv h1
    cases h1
    exact hm
  | message d line =>
    simp only [Server.react] at h1
    obtain ⟨⟨e, r⟩, h3, h1⟩ := ebind_inv h1
    dsimp only at h1
    split at h1
    · split at h1
      · cases h1
        rcases List.mem_append.1 hm with hm | hm
        · exact hm
        · simp only [List.mem_singleton, Prod.mk.injEq] at hm
          exact absurd (by rw [hm.1]) (hc line)
      · cases h1
    · cases h1

theorem deliver_responses {s : Server L} {broken : List Nat} {c : Nat} {r : Response}
    (hm : (c, Wire.response r) ∈ (s.deliver broken).written) : (c, Wire.response r) ∈ s.written := by
  unfold Server.deliver at hm
  split at hm
  · exact hm
  · rcases List.mem_append.1 hm with hm | hm
    · exact hm
    · obtain ⟨d, _, hd⟩ := List.mem_map.1 hm
      simp at hd

/-- C93: while others join, leave and send lines, in any order, a client is written nothing but views and what was
already queued for it: it gets no response, and nothing of the others' messages, errors, hints, menus and statuses. -/
theorem C93_others {steps : List (Server.Step L)} {s s' : Server L} {r : Option (List (Server.Step L))}
    (hr : ServerRun s) (hl : DiscreetSteps steps) {c : Nat}
    (hc : ∀ env wr ev, Server.Step.event env wr ev ∈ steps → clientOf ev ≠ c)
    (h : s.loop steps = .ok (s', r)) (h0 : s.delivered ≤ s.editor.core.out.length) :
    (∀ x, (c, Wire.response x) ∈ s'.written → (c, Wire.response x) ∈ s.written) ∧
      nonViews (notesFor c s'.editor.core.out) = nonViews (notesFor c s.editor.core.out) ∧
      ∃ ns, notesTo c s'.written = notesTo c s.written ++ ns ∧
        (nonViews ns).Sublist (nonViews (notesFor c (s.editor.core.out.drop s.delivered))) := by
  induction steps generalizing s with
  | nil => cases h; exact ⟨fun _ h => h, rfl, [], by simp, List.nil_sublist _⟩
  | cons x steps ih =>
    have hl' : DiscreetSteps steps := fun env wr ev hm => hl env wr ev (List.mem_cons_of_mem _ hm)
    have hc' := fun env wr ev hm => hc env wr ev (List.mem_cons_of_mem x hm)
    cases x with
    | deliver broken =>
      rw [Server.loop] at h
      obtain ⟨he, hd⟩ := deliver_notes (nodup_run hr) broken c
      rcases hd with ⟨hd, _⟩ | ⟨b, hb, hd, hn⟩
      · rw [hd] at h; exact ih hr hl' hc' h h0
      · have hlt := (List.getElem?_eq_some_iff.1 hb).1
        obtain ⟨i1, i2, ns, i3, i4⟩ := ih (.deliver broken hr) hl' hc' h (by rw [hd, he]; omega)
        rw [he] at i2 i4
        rw [hd] at i4
        refine ⟨fun x hx => deliver_responses (i1 x hx), i2, (if c ∈ s.index ∧ Addressed b c ∧ c ∉ broken then [b.note] else []) ++ ns,
          by rw [i3, hn, List.append_assoc], ?_⟩
        have hdrop : s.editor.core.out.drop s.delivered = b :: s.editor.core.out.drop (s.delivered + 1) := by
          obtain ⟨hlen, hval⟩ := List.getElem?_eq_some_iff.1 hb
          rw [List.drop_eq_getElem_cons hlen, hval]
        have e : notesFor c (b :: s.editor.core.out.drop (s.delivered + 1)) =
            notesFor c [b] ++ notesFor c (s.editor.core.out.drop (s.delivered + 1)) := notesFor_append c [b] _
        rw [hdrop, e, nonViews_append, nonViews_append]
        refine List.Sublist.append ?_ i4
        split
        · rename_i hh; simp [notesFor, hh.2.1]
        · exact List.nil_sublist _
    | event env wr ev =>
      rw [Server.loop] at h
      obtain ⟨⟨s1, last⟩, h2, h⟩ := ebind_inv h
      dsimp only at h
      have hd := hl env wr ev (List.mem_cons_self ..)
      have hev := hc env wr ev (List.mem_cons_self ..)
      obtain ⟨n1, n2, n3⟩ := turn_notes (discreet_appending hd) h2 c
      have o := C93_private hd h2
      have k0 : s1.delivered ≤ s1.editor.core.out.length := by
        rw [n2]; exact Nat.le_trans h0 n3.length_le
      have kr := turn_responses h2 (c := c) (by rintro line rfl; exact hev rfl)
      have ko := only_other (c := c) (fun e => hev e.symm) o
      have kd : nonViews (notesFor c (s1.editor.core.out.drop s1.delivered)) =
          nonViews (notesFor c (s.editor.core.out.drop s.delivered)) := by
        have e1 : ∀ l : List Broadcast, ∀ k, nonViews (notesFor c l) =
            nonViews (notesFor c (l.take k)) ++ nonViews (notesFor c (l.drop k)) := by
          intro l k
          rw [← nonViews_append, ← notesFor_append, List.take_append_drop]
        rw [e1 s1.editor.core.out s1.delivered, e1 s.editor.core.out s.delivered, n2, prefix_take n3 h0] at ko
        rw [n2]
        exact List.append_cancel_left ko
      cases last with
      | true =>
        simp only [if_true] at h; cases h
        exact ⟨kr, ko, [], by simp [n1], List.nil_sublist _⟩
      | false =>
        obtain ⟨i1, i2, ns, i3, i4⟩ := ih (.event hr h2) hl' hc' h k0
        exact ⟨fun x hx => kr x (i1 x hx), i2.trans ko, ns, by rw [i3, n1], by rw [kd] at i4; exact i4⟩

/-! ## A client that only watches -/

/-- The greeting of a client and its status line. -/
def greeting (c : Nat) (session : Str) (cwd : Path) : List Note :=
  [.info (natStr c) session cwd, .status [(100, str!"[" ++ natStr c ++ str!"@" ++ session ++ str!"]")]]

/-- what joining queues for the one who joins -/
theorem join_nonViews {env : EditorEnv LuaState} (std : Standard eng env) {e e' : Ced.Editor LuaState} {c : Nat}
    (hl : e.lua.session = e.session) (h : e.addClient env c = .ok e') :
    ∃ cwd, nonViews (notesFor c e'.core.out) = nonViews (notesFor c e.core.out) ++ greeting c e.session cwd := by
  obtain ⟨_, w, hw, hc⟩ := add_state std h
  unfold World.addClient at hw
  obtain ⟨ctx, _, hw⟩ := bind_inv hw
  obtain ⟨⟨cs, o⟩, _, hw⟩ := bind_inv hw
  obtain ⟨w1, h1, hw⟩ := bind_inv hw
  cases hw
  have k : nonViews (notesFor c w1.out) = nonViews (notesFor c e.core.out) := by
    have := sends_nonViews (c := c) (World.sends_debug h1)
    exact this
  refine ⟨w1.cwd, ?_⟩
  rw [hc, hl]
  show nonViews (notesFor c ((w1.out ++ [_]) ++ [_])) = _
  rw [notesFor_append, notesFor_append, nonViews_append, nonViews_append, k, List.append_assoc]
  congr 1
  have a : ∀ n, Addressed ⟨some [c], n⟩ c := fun n => .inr ⟨[c], rfl, List.mem_singleton.2 rfl⟩
  simp [notesFor, a, nonViews, greeting]

/-- what leaving queues for the one who leaves -/
theorem leave_nonViews {env : EditorEnv LuaState} (std : Standard eng env) {e e' : Ced.Editor LuaState} {c : Nat}
    (h : e.removeClient env c = .ok e') : nonViews (notesFor c e'.core.out) = nonViews (notesFor c e.core.out) := by
  obtain ⟨_, hw⟩ := remove_state std h
  unfold World.removeClient at hw
  have := sends_nonViews (c := c) (World.sends_debug hw)
  exact this

/-- A schedule of ced: its scripts are those of ced, and the scripts that clients send are discreet. -/
def CedSteps (steps : List (Server.Step LuaState)) : Prop :=
  ∀ env wr ev, Server.Step.event env wr ev ∈ steps → ∃ eng, Standard eng env ∧ Discreet env.lua

/-- How often a client joins. -/
def joinsOf (c : Nat) (steps : List (Server.Step L)) : Nat :=
  (steps.filter fun x => match x with | .event _ _ (.join d) => decide (d = c) | _ => false).length

/-- what holds between the events: the name of the session is known -/
structure NamedServer (session : Str) (s : Server LuaState) : Prop where
  menus : s.editor.Menus
  name : s.editor.session = session
  lua : GoodHandlers session s.editor.lua

theorem keeps_good {env : EditorEnv LuaState} (std : Standard eng env) (session : Str) :
    Editor.LuaKeeps (GoodHandlers session) env.lua := by
  refine ⟨serves_good std session, ?_, ?_⟩
  · rw [std.lua]
    rintro c l w l' w' m ⟨g1, g2⟩ h
    cases h
    refine ⟨g1, fun d hd he => ?_⟩
    by_cases hcd : d = c
    · subst hcd
      have he : (l.clients.set d { modeStack := [str!"normal"], keysText := none, modeText := none }).get d = some hd := he
      rw [Assoc.get_set_self] at he
      cases he
      exact ⟨.normal, rfl⟩
    · have he : (l.clients.set c { modeStack := [str!"normal"], keysText := none, modeText := none }).get d = some hd := he
      rw [Assoc.get_set_ne _ hcd] at he
      exact g2 d hd he
  · rw [std.lua]
    rintro c l w l' w' m ⟨g1, g2⟩ h
    cases h
    refine ⟨g1, fun d hd he => ?_⟩
    have he : (l.clients.del c).get d = some hd := he
    by_cases hcd : d = c
    · subst hcd; rw [Assoc.get_del_self] at he; cases he
    · rw [Assoc.get_del_ne hcd] at he
      exact g2 d hd he

theorem named_turn {env : EditorEnv LuaState} (std : Standard eng env) {session : Str} {s s' : Server LuaState}
    (n : NamedServer session s) {ev : ServerEvent} {wr last : Bool} (h : s.turn env wr ev = .ok (s', last)) : NamedServer session s' := by
  unfold Server.turn at h
  obtain ⟨s1, h1, h⟩ := ebind_inv h
  obtain ⟨s2, h2, h⟩ := ebind_inv h
  cases h
  have key : NamedServer session s1 := by
    cases ev with
    | join d =>
      simp only [Server.react] at h1
      obtain ⟨e, h3, h1⟩ := ebind_inv h1
      cases h1
      have sm := Editor.same_addClient (lift_ok h3)
      exact ⟨Editor.menus_of_same sm n.menus, sm.session.trans n.name,
        Editor.addClient_keeps (keeps_good std session) (lift_ok h3) n.lua⟩
    | leave d =>
      simp only [Server.react] at h1
      obtain ⟨e, h3, h1⟩ := ebind_inv h1
      obtain ⟨i, _, h1⟩ := ebind_inv h1
      cases h1
      have sm := Editor.same_removeClient (lift_ok h3)
      exact ⟨Editor.menus_of_same sm n.menus, sm.session.trans n.name,
        Editor.removeClient_keeps (keeps_good std session) (lift_ok h3) n.lua⟩
    | message d line =>
      simp only [Server.react] at h1
      obtain ⟨⟨e, r⟩, h3, h1⟩ := ebind_inv h1
      dsimp only at h1
      split at h1
      · split at h1
        · cases h1
          have mh := Editor.menus_handle n.menus (lift_ok h3)
          exact ⟨mh.1, mh.2.1.trans n.name, Editor.handle_keeps (serves_good std session) (lift_ok h3) n.lua⟩
        · cases h1
      · cases h1
  unfold Server.purge at h2
  obtain ⟨ix, _, h2⟩ := ebind_inv h2
  cases h2
  exact ⟨key.menus, key.name, key.lua⟩

/-- what an event queues for a client that sends no lines -/
theorem silent_turn {env : EditorEnv LuaState} (std : Standard eng env) (hd : Discreet env.lua) {session : Str}
    {s s' : Server LuaState} (n : NamedServer session s) {ev : ServerEvent} {wr last : Bool} {c : Nat}
    (hq : ∀ line, ev ≠ .message c line) (h : s.turn env wr ev = .ok (s', last)) :
    ∃ cwd, nonViews (notesFor c s'.editor.core.out) = nonViews (notesFor c s.editor.core.out) ++
      if ev = .join c then greeting c session cwd else [] := by
  by_cases hc : clientOf ev = c
  · unfold Server.turn at h
    obtain ⟨s1, h1, h⟩ := ebind_inv h
    obtain ⟨s2, h2, h⟩ := ebind_inv h
    cases h
    obtain ⟨_, _, _, _, p3, _⟩ := purge_ok h2
    rw [p3]
    cases ev with
    | join d =>
      obtain rfl : d = c := hc
      simp only [Server.react] at h1
      obtain ⟨e, h3, h1⟩ := ebind_inv h1
      cases h1
      obtain ⟨cwd, hw⟩ := join_nonViews std (n.lua.1.trans n.name.symm) (lift_ok h3)
      exact ⟨cwd, by rw [if_pos rfl, ← n.name]; exact hw⟩
    | leave d =>
      obtain rfl : d = c := hc
      simp only [Server.react] at h1
      obtain ⟨e, h3, h1⟩ := ebind_inv h1
      obtain ⟨i, _, h1⟩ := ebind_inv h1
      cases h1
      exact ⟨[], by rw [if_neg (by simp), List.append_nil]; exact leave_nonViews std (lift_ok h3)⟩
    | message d line => obtain rfl : d = c := hc; exact absurd rfl (hq line)
  · refine ⟨[], ?_⟩
    rw [if_neg (by rintro rfl; exact hc rfl), List.append_nil]
    exact only_other (fun e => hc e.symm) (C93_private hd h)

theorem silent_loop {steps : List (Server.Step LuaState)} {session : Str} {c : Nat} (hl : CedSteps steps)
    (hq : ∀ env wr line, Server.Step.event env wr (.message c line) ∉ steps) (hj : joinsOf c steps ≤ 1)
    {s s' : Server LuaState} {r : Option (List (Server.Step LuaState))} (n : NamedServer session s)
    (h : s.loop steps = .ok (s', r)) :
    (∀ x, (c, Wire.response x) ∈ s'.written → (c, Wire.response x) ∈ s.written) ∧
      ∃ cwd g, (g = [] ∨ (g = greeting c session cwd ∧ joinsOf c steps = 1)) ∧
        nonViews (notesFor c s'.editor.core.out) = nonViews (notesFor c s.editor.core.out) ++ g := by
  induction steps generalizing s with
  | nil => cases h; exact ⟨fun _ h => h, [], [], .inl rfl, by simp⟩
  | cons x steps ih =>
    have hl' : CedSteps steps := fun env wr ev hm => hl env wr ev (List.mem_cons_of_mem _ hm)
    have hq' := fun env wr line hm => hq env wr line (List.mem_cons_of_mem x hm)
    cases x with
    | deliver broken =>
      rw [Server.loop] at h
      have he : (s.deliver broken).editor = s.editor := by unfold Server.deliver; split <;> rfl
      have hj' : joinsOf c (Server.Step.deliver broken :: steps) = joinsOf c steps := rfl
      rw [hj'] at hj ⊢
      obtain ⟨i1, i2⟩ := ih hl' hq' hj (s := s.deliver broken) ⟨by rw [he]; exact n.menus, by rw [he]; exact n.name, by rw [he]; exact n.lua⟩ h
      rw [he] at i2
      exact ⟨fun x hx => deliver_responses (i1 x hx), i2⟩
    | event env wr ev =>
      rw [Server.loop] at h
      obtain ⟨⟨s1, last⟩, h2, h⟩ := ebind_inv h
      dsimp only at h
      obtain ⟨eng, std, hd⟩ := hl env wr ev (List.mem_cons_self ..)
      have hev : ∀ line, ev ≠ .message c line := by
        rintro line rfl; exact hq env wr line (List.mem_cons_self ..)
      have kr := turn_responses h2 hev
      obtain ⟨cwd, ko⟩ := silent_turn std hd n hev h2
      have n1 := named_turn std n h2
      have hj' : joinsOf c (Server.Step.event env wr ev :: steps) = (if ev = .join c then 1 else 0) + joinsOf c steps := by
        unfold joinsOf
        cases ev with
        | join d =>
          by_cases hdc : d = c
          · simp [hdc, Nat.add_comm]
          · simp [hdc]
        | leave d => simp
        | message d line => simp
      rw [hj'] at hj ⊢
      cases last with
      | true =>
        simp only [if_true] at h; cases h
        refine ⟨kr, cwd, _, ?_, ko⟩
        split
        · rename_i hh; rw [if_pos hh] at hj; exact .inr ⟨rfl, by omega⟩
        · exact .inl rfl
      | false =>
        obtain ⟨i1, cwd', g, hg, i2⟩ := ih hl' hq' (by omega) n1 h
        refine ⟨fun x hx => kr x (i1 x hx), ?_⟩
        by_cases hh : ev = .join c
        · rw [if_pos hh] at hj ko ⊢
          rcases hg with rfl | ⟨_, hg⟩
          · exact ⟨cwd, _, .inr ⟨rfl, by omega⟩, by rw [i2, ko, List.append_nil]⟩
          · omega
        · rw [if_neg hh] at hj ko ⊢
          rw [List.append_nil] at ko
          refine ⟨cwd', g, ?_, by rw [i2, ko]⟩
          rcases hg with hg | ⟨hg, hg'⟩
          · exact .inl hg
          · exact .inr ⟨hg, by omega⟩

/-- a new editor has queued nothing but views, and knows its name -/
theorem new_named {env : EditorEnv LuaState} {session : Str} {cwd : Path} {args cwdText : Str}
    {e : Ced.Editor LuaState} (h : Ced.Editor.new env ⟨session, []⟩ (Scripts.prelude eng) session cwd args cwdText = .ok e) (c : Nat) :
    NamedServer session (Server.start e) ∧ nonViews (notesFor c e.core.out) = [] := by
  unfold Ced.Editor.new at h
  obtain ⟨w, hw, h⟩ := bind_inv h
  obtain ⟨⟨l, w', er⟩, h2, h⟩ := bind_inv h
  unfold Scripts.prelude at h2
  obtain ⟨w2, h3, h2⟩ := bind_inv h2
  obtain ⟨w3, h4, h2⟩ := bind_inv h2
  cases h2
  cases h
  refine ⟨⟨⟨Editor.menusOk_default, fun _ h => h⟩, rfl, rfl, fun c h hh => by cases hh⟩, ?_⟩
  show nonViews (notesFor c w'.out) = []
  rw [sends_nonViews (World.sends_debug h4), sends_nonViews (World.sends_debug h3)]
  unfold World.start at hw
  obtain ⟨w4, h5, hw⟩ := bind_inv hw
  obtain ⟨w5, h6, hw⟩ := bind_inv hw
  rw [sends_nonViews (World.sends_addView hw)]
  show nonViews (notesFor c w5.out) = []
  rw [sends_nonViews (World.sends_debug h6), sends_nonViews (World.sends_debug h5)]
  rfl

/-- C93: a client that never sends a line is written, from the start of the server to any later time, no response, and
besides views at most its greeting (its number, the name of the session, the directory) and then its first status line:
no hint, no menu, no message and no error. -/
theorem C93_silent {env : EditorEnv LuaState} {session : Str} {cwd : Path} {args cwdText : Str}
    {e : Ced.Editor LuaState} (hn : Ced.Editor.new env ⟨session, []⟩ (Scripts.prelude eng) session cwd args cwdText = .ok e)
    {steps : List (Server.Step LuaState)} {c : Nat} (hl : CedSteps steps)
    (hq : ∀ env wr line, Server.Step.event env wr (.message c line) ∉ steps) (hj : joinsOf c steps ≤ 1)
    {s' : Server LuaState} {r : Option (List (Server.Step LuaState))} (h : (Server.start e).loop steps = .ok (s', r)) :
    (∀ x, (c, Wire.response x) ∉ s'.written) ∧
      ∃ cwd, (nonViews (notesTo c s'.written)).Sublist (greeting c session cwd) := by
  obtain ⟨nm, h0⟩ := new_named hn c
  obtain ⟨i1, cwd', g, hg, i2⟩ := silent_loop hl hq hj nm h
  refine ⟨fun x hx => (by have := i1 x hx; cases this), cwd', ?_⟩
  have ha : Appends steps := fun env wr ev hm => (hl env wr ev hm).elim fun _ x => discreet_appending x.2
  have k := C65_run ha h c
  have k1 : (nonViews (notesTo c s'.written)).Sublist (nonViews (notesFor c (s'.editor.core.out.take s'.delivered))) :=
    k.filter _
  have k2 : (nonViews (notesFor c (s'.editor.core.out.take s'.delivered))).Sublist (nonViews (notesFor c s'.editor.core.out)) :=
    (((List.take_sublist _ _).filter _).map _).filter _
  have k3 := k1.trans k2
  have i3 : nonViews (notesFor c s'.editor.core.out) = g := by
    rw [i2]; show nonViews (notesFor c e.core.out) ++ g = g; rw [h0]; rfl
  rw [i3] at k3
  rcases hg with rfl | ⟨rfl, _⟩
  · exact k3.trans (List.nil_sublist _)
  · exact k3

/-- the scripts of the examples are discreet -/
theorem discreetA : Discreet cedEnv.lua := by
  refine C93_scripts (eng := engA) ?_
  intro c s l w l' w' m h
  obtain ⟨w1, h1, h2⟩ := map_inv h
  cases h2
  exact World.message_only h1

/-- two clients join; the first one opens a file, presses `g` (which shows it a hint), `m` and a wrong line -/
def watchedSteps : List (Server.Step LuaState) :=
  [.event cedEnv true (.join 1), .deliver [], .event cedEnv true (.join 2), .deliver [], .deliver [], .deliver [],
   .event cedEnv true (.message 1 editLine), .event cedEnv true (.message 1 (keysLine [press 'g', press 'h', press 'm'])),
   .event cedEnv true (.message 1 str!"?"), .deliver [], .deliver [], .deliver [], .deliver [], .deliver [], .deliver [],
   .deliver [], .deliver [], .deliver [], .deliver [], .deliver [], .deliver []]

example : CedSteps watchedSteps ∧ joinsOf 2 watchedSteps = 1 ∧
    ∀ env wr line, Server.Step.event env wr (.message 2 line) ∉ watchedSteps := by
  refine ⟨?_, by decide, ?_⟩
  · intro env wr ev h
    have : env = cedEnv := by
      simp only [watchedSteps, List.mem_cons, List.not_mem_nil, or_false, Server.Step.event.injEq, reduceCtorEq, false_or] at h
      rcases h with ⟨rfl, _⟩ | ⟨rfl, _⟩ | ⟨rfl, _⟩ | ⟨rfl, _⟩ | ⟨rfl, _⟩ <;> rfl
    subst this
    exact ⟨engA, standardA, discreetA⟩
  · intro env wr line h
    simp only [watchedSteps, List.mem_cons, List.not_mem_nil, or_false, Server.Step.event.injEq, reduceCtorEq, false_or] at h
    simp at h

/-- How many notifications of each client, and how many of them are not views. -/
def watchedCounts : Option (List (Nat × Nat)) :=
  ((startCed.bind fun s => s.loop watchedSteps).toOption.map fun x =>
    [1, 2].map fun c => ((notesTo c x.1.written).length, (nonViews (notesTo c x.1.written)).length))

/-- the first client is told much, the second one sees views and its greeting -/
example : watchedCounts = some [(11, 8), (4, 2)] := by decide +kernel

/-- An engine whose scripts tell the second client what they say, as `ced.editor:message` can (core.rs:665-668). -/
def engTelling : LuaEngine := { engA with exec := fun _ s l w => (w.message envA (some 2) s).map fun w => (l, w, none) }

/-- C93 needs its hypothesis on the scripts that clients send: such a script may tell any client anything. -/
theorem C93_exec_refuted : ¬ Discreet (Scripts.lua engTelling) := by
  intro h
  have run : ((World.new []).message envA (some 2) str!"hi").toOption.map (fun w => w.out) =
      some [⟨some [2], .echo str!"hi" .default⟩] := by decide +kernel
  cases hm : (World.new []).message envA (some 2) str!"hi" with
  | error p => rw [hm] at run; cases run
  | ok w =>
    rw [hm] at run
    have he : (Scripts.lua engTelling).exec 1 str!"hi" ⟨[], []⟩ (World.new []) = .ok (⟨[], []⟩, w, none) := by
      have e : (Scripts.lua engTelling).exec 1 str!"hi" ⟨[], []⟩ (World.new []) =
          ((World.new []).message envA (some 2) str!"hi").map fun w => (⟨[], []⟩, w, none) := rfl
      rw [e, hm]; rfl
    obtain ⟨new, e, hp⟩ := h.2.2.2 _ _ _ _ _ _ _ he
    have run : w.out = [⟨some [2], .echo str!"hi" .default⟩] := Option.some.inj run
    rw [run] at e
    have e : [(⟨some [2], .echo str!"hi" .default⟩ : Broadcast)] = new := e
    subst e
    rcases hp _ (List.mem_singleton.2 rfl) with h | ⟨_, _, h⟩ <;> cases h

end Ced.Props

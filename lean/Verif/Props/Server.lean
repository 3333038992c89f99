import Verif.Proofs.Editor
import Verif.Props.Requests

/-! # Properties of the server: C40-C43 -/

namespace Ced.Props
open Ced Ced.Spec

variable {L : Type}

/-! ## Steps -/

theorem lift_ok {α : Type} {x : R α} {a : α} (h : Server.lift x = .ok a) : x = .ok a := by
  cases x with
  | error p => cases h
  | ok b => simp only [Server.lift, Except.ok.injEq] at h; rw [h]

theorem lift_missing {α : Type} {x : R α} : Server.lift x ≠ .error .missing := by
  cases x <;> simp [Server.lift]

theorem ebind_inv {α β ε : Type} {x : Except ε α} {f : α → Except ε β} {b : β} (h : (x >>= f) = .ok b) :
    ∃ a, x = .ok a ∧ f a = .ok b := by
  cases x with
  | error e => cases h
  | ok a => exact ⟨a, rfl, h⟩

theorem purge_calm {s : Server L} (h : s.editor.stopped = []) : s.purge = .ok s := by
  obtain ⟨⟨a, b, c, d, f⟩, i, j, k⟩ := s
  dsimp only at h
  subst h
  rfl

/-- purging writes nothing -/
theorem purge_ok {s s' : Server L} (h : s.purge = .ok s') : s'.written = s.written ∧ s'.delivered = s.delivered ∧
    s'.editor.stopped = [] ∧ s'.editor.menus = s.editor.menus ∧ s'.editor.core = s.editor.core ∧
    s.editor.stopped.foldlM Server.removeIndex s.index = .ok s'.index := by
  unfold Server.purge at h
  dsimp only [Editor.removedClients] at h
  obtain ⟨l, hl, h⟩ := ebind_inv h
  cases h
  exact ⟨rfl, rfl, rfl, rfl, rfl, hl⟩

theorem removeIndex_ok {l l' : List Nat} {c : Nat} (h : Server.removeIndex l c = .ok l') :
    c ∈ l ∧ l' = l.filter (· ≠ c) := by
  unfold Server.removeIndex at h
  split at h
  · cases h; exact ⟨by assumption, rfl⟩
  · cases h

/-! ## C40 -/

/-- C40: a line that is treated is answered to the client that sent it, once, and nothing is written to others. -/
theorem C40_response {env : EditorEnv L} {wr last : Bool} {s s' : Server L} {c : Nat} {line : Str}
    (h : s.turn env wr (.message c line) = .ok (s', last)) :
    c ∈ s.index ∧ ∃ e r, s.editor.handle env c line = .ok (e, r) ∧ s'.written = s.written ++ [(c, .response r)] := by
  unfold Server.turn at h
  obtain ⟨s1, h1, h⟩ := ebind_inv h
  obtain ⟨s2, h2, h⟩ := ebind_inv h
  cases h
  simp only [Server.react] at h1
  obtain ⟨⟨e, r⟩, h3, h1⟩ := ebind_inv h1
  dsimp only at h1
  split at h1
  · rename_i hc
    split at h1
    · cases h1
      exact ⟨hc, e, r, lift_ok h3, (purge_ok h2).1⟩
    · cases h1
  · cases h1

/-- C40: clients that come or go cause nothing to be written at once. -/
theorem C40_quiet {env : EditorEnv L} {wr last : Bool} {s s' : Server L} {ev : ServerEvent}
    (h : s.turn env wr ev = .ok (s', last)) (hev : ∀ c line, ev ≠ .message c line) : s'.written = s.written := by
  unfold Server.turn at h
  obtain ⟨s1, h1, h⟩ := ebind_inv h
  obtain ⟨s2, h2, h⟩ := ebind_inv h
  cases h
  rw [(purge_ok h2).1]
  cases ev with
  | join c =>
    simp only [Server.react] at h1
    obtain ⟨e, _, h1⟩ := ebind_inv h1
    cases h1; rfl
  | leave c =>
    simp only [Server.react] at h1
    obtain ⟨e, _, h1⟩ := ebind_inv h1
    obtain ⟨i, _, h1⟩ := ebind_inv h1
    cases h1; rfl
  | message c l => exact absurd rfl (hev c l)

theorem shouldNotify_iff {b : Broadcast} {c : Nat} : b.shouldNotify c = true ↔ Addressed b c := by
  obtain ⟨o, n⟩ := b
  cases o <;> simp [Broadcast.shouldNotify, Addressed]

/-- The connections are in the index once each. -/
theorem nodup_react {env : EditorEnv L} {wr : Bool} {s s' : Server L} {ev : ServerEvent}
    (h : s.react env wr ev = .ok s') (hn : s.index.Nodup) : s'.index.Nodup := by
  cases ev with
  | join c =>
    simp only [Server.react] at h
    obtain ⟨e, _, h⟩ := ebind_inv h
    cases h
    show (Server.addIndex _ _).Nodup
    unfold Server.addIndex
    split
    · exact hn
    · rename_i hc
      rw [List.nodup_append]
      exact ⟨hn, by simp, by rintro a ha b hb rfl; simp only [List.mem_singleton] at hb; exact hc (hb ▸ ha)⟩
  | leave c =>
    simp only [Server.react] at h
    obtain ⟨e, _, h⟩ := ebind_inv h
    obtain ⟨i, hi, h⟩ := ebind_inv h
    cases h
    obtain ⟨_, rfl⟩ := removeIndex_ok hi
    exact hn.filter _
  | message c l =>
    simp only [Server.react] at h
    obtain ⟨⟨e, r⟩, _, h⟩ := ebind_inv h
    dsimp only at h
    split at h
    · split at h
      · cases h; exact hn
      · cases h
    · cases h

theorem nodup_purge {ids l l' : List Nat} (h : ids.foldlM Server.removeIndex l = .ok l') (hn : l.Nodup) : l'.Nodup := by
  induction ids generalizing l with
  | nil => cases h; exact hn
  | cons c ids ih =>
    rw [List.foldlM_cons] at h
    obtain ⟨i, hi, h⟩ := ebind_inv h
    obtain ⟨_, rfl⟩ := removeIndex_ok hi
    exact ih h (hn.filter _)

theorem nodup_turn {env : EditorEnv L} {wr last : Bool} {s s' : Server L} {ev : ServerEvent}
    (h : s.turn env wr ev = .ok (s', last)) (hn : s.index.Nodup) : s'.index.Nodup := by
  unfold Server.turn at h
  obtain ⟨s1, h1, h⟩ := ebind_inv h
  obtain ⟨s2, h2, h⟩ := ebind_inv h
  cases h
  exact nodup_purge (purge_ok h2).2.2.2.2.2 (nodup_react h1 hn)

theorem nodup_deliver {s : Server L} {broken : List Nat} : (s.deliver broken).index = s.index := by
  unfold Server.deliver; split <;> rfl

/-- The states of a server in the course of its loop. -/
inductive ServerRun : Server L → Prop
  | start (e : Editor L) : ServerRun (Server.start e)
  | event {env : EditorEnv L} {wr : Bool} {ev : ServerEvent} {s s' : Server L} (r : ServerRun s)
      (h : s.turn env wr ev = .ok (s', false)) : ServerRun s'
  | deliver {s : Server L} (broken : List Nat) (r : ServerRun s) : ServerRun (s.deliver broken)

theorem nodup_run {s : Server L} (r : ServerRun s) : s.index.Nodup := by
  induction r with
  | start e => exact List.nodup_nil
  | event _ h ih => exact nodup_turn h ih
  | deliver broken _ ih => rw [nodup_deliver]; exact ih

theorem count_notes {l : List Nat} {p : Nat → Bool} {w : Wire} (hn : l.Nodup) (c : Nat) :
    ((l.filter p).map fun d => (d, w)).count (c, w) = if c ∈ l ∧ p c = true then 1 else 0 := by
  rw [List.count_eq_countP, List.countP_map]
  have : ((fun x => x == (c, w)) ∘ fun d : Nat => (d, w)) = fun d => d == c := by
    funext d; simp
  rw [this]
  show (l.filter p).count c = _
  have hn' := hn.filter p
  rw [List.Nodup.count hn']
  simp [List.mem_filter]

/-- C40: a notification is written to exactly the clients that are connected, that it is addressed to and whose
connection is not broken, once each; nothing else is written with it, and the next one follows. -/
theorem C40_deliver {s : Server L} (r : ServerRun s) (broken : List Nat) {b : Broadcast}
    (hb : s.editor.core.out[s.delivered]? = some b) :
    (s.deliver broken).delivered = s.delivered + 1 ∧ ∃ new, (s.deliver broken).written = s.written ++ new ∧
      (∀ x ∈ new, x.2 = .note b.note) ∧
      ∀ c, (new.count (c, .note b.note) = 1 ↔ c ∈ s.index ∧ Addressed b c ∧ c ∉ broken) ∧
        new.count (c, .note b.note) ≤ 1 := by
  unfold Server.deliver
  rw [hb]
  refine ⟨rfl, _, rfl, ?_, fun c => ?_⟩
  · intro x hx
    obtain ⟨d, _, rfl⟩ := List.mem_map.1 hx
    rfl
  · rw [count_notes (nodup_run r), ← shouldNotify_iff]
    simp only [Bool.and_eq_true, Bool.not_eq_true', List.contains_eq_mem, decide_eq_false_iff_not]
    split
    · rename_i h; exact ⟨⟨fun _ => ⟨h.1, h.2.1, h.2.2⟩, fun _ => rfl⟩, Nat.le_refl 1⟩
    · rename_i h; exact ⟨⟨fun h' => by omega, fun h' => absurd ⟨h'.1, h'.2.1, h'.2.2⟩ h⟩, by omega⟩

theorem responseIds_append (c : Nat) (a b : List (Nat × Wire)) :
    responseIds c (a ++ b) = responseIds c a ++ responseIds c b := by
  unfold responseIds; rw [List.filterMap_append]

theorem responses_deliver (s : Server L) (broken : List Nat) (c : Nat) :
    responseIds c (s.deliver broken).written = responseIds c s.written := by
  unfold Server.deliver
  split
  · rfl
  · rw [responseIds_append]
    have : ∀ l : List Nat, ∀ n, responseIds c (l.map fun d => (d, Wire.note n)) = [] := by
      intro l n
      induction l with
      | nil => rfl
      | cons d l ih => simpa [responseIds] using ih
    rw [this, List.append_nil]

/-- C40: in any run of the loop that goes through all its steps, each client is written exactly one response for each
line it sent, in the order of its lines, with the identifier of the request. -/
theorem C40_run {steps : List (Server.Step L)} {s s' : Server L} (h : s.loop steps = .ok (s', none)) (c : Nat) :
    responseIds c s'.written = responseIds c s.written ++ requestIds c steps := by
  induction steps generalizing s with
  | nil => cases h; simp [requestIds]
  | cons x steps ih =>
    cases x with
    | deliver broken =>
      rw [Server.loop] at h
      rw [ih h, responses_deliver]
      rfl
    | event env wr ev =>
      rw [Server.loop] at h
      obtain ⟨⟨s1, last⟩, h1, h⟩ := ebind_inv h
      dsimp only at h
      split at h
      · cases h
      · rw [ih h]
        cases ev with
        | message c' line =>
          obtain ⟨_, e, r, hr, hw⟩ := C40_response h1
          rw [hw, responseIds_append, List.append_assoc]
          congr 1
          have hid := (C37_response hr).1
          by_cases hc : c' = c
          · subst hc
            simp only [responseIds, requestIds, List.filterMap_cons, List.filterMap_nil, if_true, hid]
            rfl
          · simp [responseIds, requestIds, hc]
        | join c' => rw [C40_quiet h1 (by simp)]; rfl
        | leave c' => rw [C40_quiet h1 (by simp)]; rfl

/-! ## C41, C43 -/

theorem openFrom_cons (l : List Nat) (ev : ServerEvent) (evs : List ServerEvent) :
    openFrom l (ev :: evs) = openFrom (openFrom l [ev]) evs := rfl

/-- the treatment of one event when nobody quits -/
theorem turn_calm {env : EditorEnv L} {wr : Bool} {s : Server L} {ev : ServerEvent} (hm : s.editor.Menus)
    (hs : s.editor.stopped = []) (hq : ∀ c line, ev = .message c line → ¬ QuitLine env line)
    (hj : ∀ c, ev = .join c → c ∉ s.index) (hl : ∀ c, ev = .leave c → c ∈ s.index)
    (hc : ∀ c line, ev = .message c line → c ∈ s.index) :
    match s.turn env wr ev with
    | .error k => k ≠ .missing
    | .ok (s', last) => s'.editor.Menus ∧ s'.editor.stopped = [] ∧ s'.index = openFrom s.index [ev] ∧
        (last = true ↔ (∃ c, ev = .leave c) ∧ s'.index = []) := by
  unfold Server.turn
  cases ev with
  | join c =>
    simp only [Server.react]
    cases h : s.editor.addClient env c with
    | error p => simp [Server.lift, bind, Except.bind]
    | ok e =>
      have same := Editor.same_addClient h
      have hst : e.stopped = [] := same.stopped.trans hs
      have hc : Server.addIndex s.index c = s.index ++ [c] := by
        unfold Server.addIndex; rw [if_neg (hj c rfl)]
      simp only [Server.lift, bind, Except.bind, pure, Except.pure]
      rw [purge_calm (by exact hst)]
      refine ⟨Editor.menus_of_same same hm, hst, hc, ?_⟩
      simp [Server.isLeave]
  | leave c =>
    simp only [Server.react]
    cases h : s.editor.removeClient env c with
    | error p => simp [Server.lift, bind, Except.bind]
    | ok e =>
      have same := Editor.same_removeClient h
      have hst : e.stopped = [] := same.stopped.trans hs
      simp only [Server.lift, bind, Except.bind, pure, Except.pure, Server.removeIndex, hl c rfl, if_true]
      rw [purge_calm (by exact hst)]
      refine ⟨Editor.menus_of_same same hm, hst, rfl, ?_⟩
      simp [Server.isLeave]
  | message c line =>
    simp only [Server.react]
    cases h : s.editor.handle env c line with
    | error p => simp [Server.lift, bind, Except.bind]
    | ok x =>
      obtain ⟨e, r⟩ := x
      have hh := Editor.menus_handle hm h
      have hst : e.stopped = [] := (hh.2.2.1 (hq c line rfl)).trans hs
      simp only [Server.lift, bind, Except.bind, pure, Except.pure, hc c line rfl, if_true]
      cases wr with
      | false => simp
      | true =>
        simp only [if_true]
        rw [purge_calm (by exact hst)]
        refine ⟨hh.1, hst, rfl, ?_⟩
        simp [Server.isLeave]

/-- the loop when nobody quits -/
theorem loop_calm {steps : List (Server.Step L)} : ∀ {s : Server L} {n : Network}, s.editor.Menus →
    s.editor.stopped = [] → (∀ x, x ∈ s.index ↔ x ∈ n.opened) → (∀ x ∈ n.opened, x < n.next) →
    n.Emits (eventsOf steps) → NoQuit steps →
    match s.loop steps with
    | .error k => k ≠ .missing
    | .ok (s', none) => s'.index = openFrom s.index (eventsOf steps) ∧
        ∀ p c, (p ++ [.leave c]) <+: eventsOf steps → openFrom s.index (p ++ [.leave c]) ≠ []
    | .ok (_, some rest) => ∃ pre env wr c, steps = pre ++ .event env wr (.leave c) :: rest ∧
        openFrom s.index (eventsOf pre ++ [.leave c]) = [] ∧
        ∀ p c', (p ++ [.leave c']) <+: eventsOf pre → openFrom s.index (p ++ [.leave c']) ≠ [] := by
  induction steps with
  | nil =>
    intro s n _ _ _ _ _ _
    refine ⟨rfl, ?_⟩
    intro p c h
    have := h.length_le
    simp [eventsOf] at this
  | cons x steps ih =>
    intro s n hm hs hi hlt he hq
    have hq' : NoQuit steps := fun env wr c line h => hq env wr c line (List.mem_cons_of_mem _ h)
    cases x with
    | deliver broken =>
      rw [Server.loop]
      have hed : (s.deliver broken).editor = s.editor := by unfold Server.deliver; split <;> rfl
      have := ih (s := s.deliver broken) (n := n) (by rw [hed]; exact hm) (by rw [hed]; exact hs)
        (by rw [nodup_deliver]; exact hi) hlt he hq'
      rw [nodup_deliver] at this
      split
      · rename_i k hk; rw [hk] at this; exact this
      · rename_i s' hk; rw [hk] at this; exact this
      · rename_i s' rest hk
        rw [hk] at this
        obtain ⟨pre, env, wr, c, h1, h2⟩ := this
        exact ⟨.deliver broken :: pre, env, wr, c, by rw [h1]; rfl, h2⟩
    | event env wr ev =>
      rw [Server.loop]
      have hev : eventsOf (.event env wr ev :: steps) = ev :: eventsOf steps := rfl
      rw [hev] at he
      have inv : (∀ c, ev = .join c → c ∉ s.index) ∧ (∀ c, ev = .leave c → c ∈ s.index) ∧
          (∀ c line, ev = .message c line → c ∈ s.index) ∧
          ∃ n' : Network, n'.Emits (eventsOf steps) ∧ (∀ x ∈ n'.opened, x < n'.next) ∧
            ∀ x, x ∈ openFrom s.index [ev] ↔ x ∈ n'.opened := by
        generalize eventsOf steps = evs at he
        cases he with
        | accept h =>
          refine ⟨?_, by simp, by simp, _, h, ?_, ?_⟩
          · intro c hc hin
            cases hc
            exact absurd (hlt _ ((hi _).1 hin)) (by omega)
          · intro x hx
            rcases List.mem_cons.1 hx with rfl | hx
            · exact Nat.lt_succ_self _
            · exact Nat.lt_succ_of_lt (hlt x hx)
          · intro x
            simp only [openFrom, List.foldl_cons, List.foldl_nil, List.mem_append, List.mem_cons, List.not_mem_nil, or_false]
            rw [hi x]; exact Or.comm
        | line l hc h =>
          refine ⟨by simp, by simp, ?_, _, h, hlt, fun x => hi x⟩
          intro c line hcl
          cases hcl
          exact (hi _).2 hc
        | close hc h =>
          refine ⟨by simp, ?_, by simp, _, h, ?_, ?_⟩
          · intro c hcl; cases hcl; exact (hi _).2 hc
          · intro x hx; exact hlt x (List.mem_filter.1 hx).1
          · intro x
            simp only [openFrom, List.foldl_cons, List.foldl_nil, List.mem_filter]
            rw [hi x]
      obtain ⟨hj, hl, hc, n', he', hlt', hi'⟩ := inv
      have ht := turn_calm (env := env) (wr := wr) (ev := ev) hm hs
        (fun c line h => hq env wr c line (by rw [h]; exact List.mem_cons_self)) hj hl hc
      cases htt : s.turn env wr ev with
      | error k => rw [htt] at ht; simp only [bind, Except.bind]; exact ht
      | ok y =>
        obtain ⟨s1, last⟩ := y
        rw [htt] at ht
        obtain ⟨hm1, hs1, hidx, hlast⟩ := ht
        simp only [bind, Except.bind]
        cases last with
        | true =>
          simp only [if_true, pure, Except.pure]
          obtain ⟨⟨c, rfl⟩, hnil⟩ := hlast.1 rfl
          refine ⟨[], env, wr, c, rfl, ?_, ?_⟩
          · rw [← hnil, hidx]; rfl
          · intro p c' h
            have := h.length_le
            simp [eventsOf] at this
        | false =>
          simp only [Bool.false_eq_true, if_false]
          have ih1 := ih hm1 hs1 (fun x => by rw [hidx]; exact hi' x) hlt' he' hq'
          rw [hidx] at ih1
          have first : ∀ q c', (q ++ [ServerEvent.leave c'] <+: [ev]) → openFrom s.index (q ++ [.leave c']) ≠ [] := by
            intro q c' h hnil
            have hle := h.length_le
            simp only [List.length_append, List.length_cons, List.length_nil] at hle
            have hq0 : q = [] := List.length_eq_zero_iff.1 (by omega)
            subst hq0
            obtain ⟨t, ht⟩ := h
            have hev' : ev = .leave c' := ((List.cons.inj ht).1).symm
            subst hev'
            have := hlast.2 ⟨⟨c', rfl⟩, by rw [hidx]; exact hnil⟩
            cases this
          have step : ∀ (evs : List ServerEvent),
              (∀ p c, (p ++ [.leave c]) <+: evs → openFrom (openFrom s.index [ev]) (p ++ [.leave c]) ≠ []) →
              ∀ p c, (p ++ [.leave c]) <+: (ev :: evs) → openFrom s.index (p ++ [.leave c]) ≠ [] := by
            intro evs hevs p c hp
            cases p with
            | nil =>
              apply first
              obtain ⟨t, ht⟩ := hp
              exact ⟨[], by have := (List.cons.inj ht).1; simp [this]⟩
            | cons y p =>
              rw [List.cons_append, List.cons_prefix_cons] at hp
              obtain ⟨rfl, hp⟩ := hp
              rw [List.cons_append, openFrom_cons]
              exact hevs p c hp
          split
          · rename_i k hk; rw [hk] at ih1; exact ih1
          · rename_i s' hk
            rw [hk] at ih1
            refine ⟨ih1.1, ?_⟩
            exact step _ ih1.2
          · rename_i s' rest hk
            rw [hk] at ih1
            obtain ⟨pre, env', wr', c, h1, h2, h3⟩ := ih1
            refine ⟨.event env wr ev :: pre, env', wr', c, by rw [h1]; rfl, h2, ?_⟩
            exact step _ h3

/-- C41: whatever the interleaving of the events of any number of connections and of the delivery of notifications, if
nobody asks to quit the server never fails to find a client it needs. -/
theorem C41_no_missing {e : Editor L} (hm : MenusOk e.menus ∧ NoOtherMenus e.menus) (hs : e.stopped = [])
    {steps : List (Server.Step L)} (he : Network.start.Emits (eventsOf steps)) (hq : NoQuit steps) :
    (Server.start e).loop steps ≠ .error .missing := by
  have := loop_calm (s := Server.start e) (n := Network.start) hm hs (by intro x; simp [Server.start, Network.start])
    (by simp [Network.start]) he hq
  intro h
  rw [h] at this
  exact this rfl

/-- C41: then the clients of the server are the open connections. -/
theorem C41_index {e : Editor L} (hm : MenusOk e.menus ∧ NoOtherMenus e.menus) (hs : e.stopped = [])
    {steps : List (Server.Step L)} (he : Network.start.Emits (eventsOf steps)) (hq : NoQuit steps) {s : Server L}
    (h : (Server.start e).loop steps = .ok (s, none)) : s.index = openAfter (eventsOf steps) := by
  have := loop_calm (s := Server.start e) (n := Network.start) hm hs (by intro x; simp [Server.start, Network.start])
    (by simp [Network.start]) he hq
  rw [h] at this
  exact this.1

/-- C43: the server stops at a disconnection that leaves no connection open, and there was none before. -/
theorem C43_stops {e : Editor L} (hm : MenusOk e.menus ∧ NoOtherMenus e.menus) (hs : e.stopped = [])
    {steps rest : List (Server.Step L)} (he : Network.start.Emits (eventsOf steps)) (hq : NoQuit steps) {s : Server L}
    (h : (Server.start e).loop steps = .ok (s, some rest)) :
    ∃ pre env wr c, steps = pre ++ .event env wr (.leave c) :: rest ∧ openAfter (eventsOf pre ++ [.leave c]) = [] ∧
      ∀ p c', (p ++ [.leave c']) <+: eventsOf pre → openAfter (p ++ [.leave c']) ≠ [] := by
  have := loop_calm (s := Server.start e) (n := Network.start) hm hs (by intro x; simp [Server.start, Network.start])
    (by simp [Network.start]) he hq
  rw [h] at this
  exact this

/-- C43: as long as the server runs, there was no such disconnection. -/
theorem C43_runs {e : Editor L} (hm : MenusOk e.menus ∧ NoOtherMenus e.menus) (hs : e.stopped = [])
    {steps : List (Server.Step L)} (he : Network.start.Emits (eventsOf steps)) (hq : NoQuit steps) {s : Server L}
    (h : (Server.start e).loop steps = .ok (s, none)) :
    ∀ p c, (p ++ [.leave c]) <+: eventsOf steps → openAfter (p ++ [.leave c]) ≠ [] := by
  have := loop_calm (s := Server.start e) (n := Network.start) hm hs (by intro x; simp [Server.start, Network.start])
    (by simp [Network.start]) he hq
  rw [h] at this
  exact this.2

/-! ### After a quit -/

theorem foldl_remove {ids l l' : List Nat} (h : ids.foldlM Server.removeIndex l = .ok l') {x : Nat} :
    x ∈ l' ↔ x ∈ l ∧ x ∉ ids := by
  induction ids generalizing l with
  | nil => cases h; simp
  | cons c ids ih =>
    rw [List.foldlM_cons] at h
    obtain ⟨i, hi, h⟩ := ebind_inv h
    obtain ⟨_, rfl⟩ := removeIndex_ok hi
    rw [ih h, List.mem_filter]
    simp only [ne_eq, decide_not, Bool.not_eq_eq_eq_not, Bool.not_true, decide_eq_false_iff_not, List.mem_cons, not_or]
    exact ⟨fun ⟨⟨a, b⟩, c⟩ => ⟨a, b, c⟩, fun ⟨a, b, c⟩ => ⟨⟨a, b⟩, c⟩⟩

/-- a client that quits leaves the index -/
theorem quit_leaves {env : EditorEnv L} {wr last : Bool} {s s' : Server L} {c : Nat} {line : Str} {q : Request}
    (hl : (env.parse line).bind Request.decode = some q) (hq : q.method = str!"quit")
    (h : s.turn env wr (.message c line) = .ok (s', last)) : c ∉ s'.index := by
  unfold Server.turn at h
  obtain ⟨s1, h1, h⟩ := ebind_inv h
  obtain ⟨s2, h2, h⟩ := ebind_inv h
  cases h
  simp only [Server.react] at h1
  obtain ⟨⟨e, r⟩, h3, h1⟩ := ebind_inv h1
  have h3 := lift_ok h3
  have hst : c ∈ e.stopped := by
    unfold Editor.handle Editor.readLine at h3
    rw [hl] at h3
    dsimp only at h3
    have hd : s.editor.dispatch env c q = some (s.editor.commandQuit env c) := by
      unfold Editor.dispatch; rw [hq]; rfl
    rw [hd] at h3
    obtain ⟨⟨e1, a⟩, h4, h3⟩ := bind_inv h3
    cases h3
    unfold Editor.commandQuit at h4
    obtain ⟨w, _, h4⟩ := bind_inv h4
    cases h4
    dsimp only
    split
    · assumption
    · simp
  dsimp only at h1
  split at h1
  · split at h1
    · cases h1
      intro hin
      exact ((foldl_remove (purge_ok h2).2.2.2.2.2).1 hin).2 hst
    · cases h1
  · cases h1

/-- a client not in the index stays out -/
theorem out_turn {env : EditorEnv L} {wr last : Bool} {s s' : Server L} {c : Nat} {ev : ServerEvent} (hc : c ∉ s.index)
    (hj : ev ≠ .join c) (h : s.turn env wr ev = .ok (s', last)) :
    c ∉ s'.index ∧ ev ≠ .leave c ∧ ∀ line, ev ≠ .message c line := by
  unfold Server.turn at h
  obtain ⟨s1, h1, h⟩ := ebind_inv h
  obtain ⟨s2, h2, h⟩ := ebind_inv h
  cases h
  have key : c ∉ s1.index ∧ ev ≠ .leave c ∧ ∀ line, ev ≠ .message c line := by
    cases ev with
    | join d =>
      simp only [Server.react] at h1
      obtain ⟨e, _, h1⟩ := ebind_inv h1
      cases h1
      refine ⟨?_, by simp, by simp⟩
      show c ∉ Server.addIndex _ _
      unfold Server.addIndex
      split
      · exact hc
      · rw [List.mem_append, List.mem_singleton, not_or]
        exact ⟨hc, fun h => hj (by rw [h])⟩
    | leave d =>
      simp only [Server.react] at h1
      obtain ⟨e, _, h1⟩ := ebind_inv h1
      obtain ⟨i, hi, h1⟩ := ebind_inv h1
      cases h1
      obtain ⟨hd, rfl⟩ := removeIndex_ok hi
      refine ⟨fun h => hc (List.mem_filter.1 h).1, ?_, by simp⟩
      intro h; cases h; exact hc hd
    | message d l =>
      simp only [Server.react] at h1
      obtain ⟨⟨e, r⟩, _, h1⟩ := ebind_inv h1
      dsimp only at h1
      split at h1
      · rename_i hd
        split at h1
        · cases h1
          exact ⟨hc, by simp, fun line h => by cases h; exact hc hd⟩
        · cases h1
      · cases h1
  refine ⟨fun hin => key.1 ((foldl_remove (purge_ok h2).2.2.2.2.2).1 hin).1, key.2⟩

/-- C41: after a quit request the loop does not survive the end of the connection, nor a further line on it: if it
does not end before, it crashes there.  Identifiers are never given twice (C42), so the client does not join again. -/
theorem C41_quit_crashes {env env' : EditorEnv L} {wr wr' last : Bool} {s s1 s' : Server L} {c : Nat} {line : Str}
    {q : Request} (hl : (env.parse line).bind Request.decode = some q) (hq : q.method = str!"quit")
    (h : s.turn env wr (.message c line) = .ok (s1, last)) {steps : List (Server.Step L)} {ev : ServerEvent}
    (hev : ev = .leave c ∨ ∃ l, ev = .message c l)
    (hj : ∀ env wr, Server.Step.event env wr (.join c) ∉ steps) {o : Option (List (Server.Step L))}
    (hloop : s1.loop (steps ++ [.event env' wr' ev]) = .ok (s', o)) :
    ∃ rest, o = some (rest ++ [.event env' wr' ev]) := by
  have hc := quit_leaves hl hq h
  clear h
  induction steps generalizing s1 with
  | nil =>
    rw [List.nil_append, Server.loop] at hloop
    obtain ⟨⟨s2, l⟩, h2, _⟩ := ebind_inv hloop
    have := (out_turn hc (by rcases hev with rfl | ⟨l, rfl⟩ <;> simp) h2).2
    rcases hev with rfl | ⟨l, rfl⟩
    · exact absurd rfl this.1
    · exact absurd rfl (this.2 l)
  | cons x steps ih =>
    have hj' : ∀ env wr, Server.Step.event env wr (.join c) ∉ steps := fun env wr h => hj env wr (List.mem_cons_of_mem _ h)
    cases x with
    | deliver broken =>
      rw [List.cons_append, Server.loop] at hloop
      exact ih hj' hloop (by rw [nodup_deliver]; exact hc)
    | event env2 wr2 ev2 =>
      rw [List.cons_append, Server.loop] at hloop
      obtain ⟨⟨s2, l⟩, h2, hloop⟩ := ebind_inv hloop
      have hne : ev2 ≠ .join c := fun h => hj env2 wr2 (by rw [h]; exact List.mem_cons_self)
      have := out_turn hc hne h2
      dsimp only at hloop
      split at hloop
      · cases hloop; exact ⟨steps, rfl⟩
      · exact ih hj' hloop this.1

/-! ## C42 -/

/-- The clients that join, in order. -/
def joins (evs : List ServerEvent) : List Nat :=
  evs.filterMap fun ev => match ev with
    | .join c => some c
    | _ => none

theorem joins_emits {n : Network} {evs : List ServerEvent} (h : n.Emits evs) :
    joins evs = List.range' n.next (joins evs).length := by
  induction h with
  | done n => rfl
  | accept h ih =>
    rename_i n evs
    have e : joins (.join n.next :: evs) = n.next :: joins evs := rfl
    rw [e, List.length_cons, List.range'_succ]
    congr 1
  | line l hc h ih => exact ih
  | close hc h ih => exact ih

/-- C42: the connections get the identifiers 1, 2, 3, … in the order they come, so they are all different. -/
theorem C42_identifiers {evs : List ServerEvent} (h : Network.start.Emits evs) :
    joins evs = (List.range (joins evs).length).map (· + 1) ∧ (joins evs).Nodup := by
  have e := joins_emits h
  have h1 : joins evs = List.range' 1 (joins evs).length := e
  refine ⟨?_, by rw [h1]; exact List.nodup_range' ..⟩
  refine h1.trans ?_
  rw [List.range'_eq_map_range]
  exact List.map_congr_left fun x _ => Nat.add_comm ..

/-! ### Examples -/

def quitLine : Str := (Call.request (.number 1) .quit).encode.write
def editLine : Str := (Call.request (.number 0) (.edit str!"f" false)).encode.write

def emptyEditor : Editor Unit :=
  match Editor.new editorEnvA () (fun l w => .ok (l, w, none)) str!"s" [] [] [] with
  | .ok e => e
  | .error _ => { session := [], menus := [], stopped := [], core := World.new [], lua := () }

/-- two clients, one leaves, the other one opens a file, and leaves -/
def twoClients : List (Server.Step Unit) :=
  [.event editorEnvA true (.join 1), .deliver [], .event editorEnvA true (.join 2), .event editorEnvA true (.leave 1),
   .event editorEnvA true (.message 2 editLine), .deliver [], .deliver [], .event editorEnvA true (.leave 2),
   .event editorEnvA true (.join 3)]

def outcomeOf (r : Except Crash (Server Unit × Option (List (Server.Step Unit)))) :
    Except Crash (List Nat × List (Nat × Bool) × Option Nat) :=
  r.map fun x => (x.1.index, x.1.written.map (fun y => (y.1, match y.2 with | .response _ => true | .note _ => false)),
    x.2.map List.length)

example : Network.start.Emits (eventsOf twoClients) := by
  refine .accept (.accept (.close (c := 1) ?_ (.line (c := 2) _ ?_ (.close (c := 2) ?_ (.accept (.done _)))))) <;> decide

example : NoQuit twoClients := by
  intro env wr c line h
  simp only [twoClients, List.mem_cons, List.not_mem_nil, or_false, reduceCtorEq, false_or,
    Server.Step.event.injEq, and_false, ServerEvent.message.injEq] at h
  obtain ⟨rfl, _, rfl, rfl⟩ := h
  rintro ⟨q, hq, hm | hm⟩
  · have : ((JsonText.parse editLine).bind Request.decode).map Request.method = some str!"edit" := by decide +kernel
    have h2 : (JsonText.parse editLine).bind Request.decode = some q := hq
    rw [h2] at this
    simp only [Option.map_some, Option.some.injEq] at this
    rw [hm] at this
    revert this; decide
  · have : ((JsonText.parse editLine).bind Request.decode).map Request.method = some str!"edit" := by decide +kernel
    have h2 : (JsonText.parse editLine).bind Request.decode = some q := hq
    rw [h2] at this
    simp only [Option.map_some, Option.some.injEq] at this
    rw [hm.1] at this
    revert this; decide

example : MenusOk emptyEditor.menus := by
  have : emptyEditor.menus = defaultCommands := by decide +kernel
  rw [this]; exact Editor.menusOk_default
example : emptyEditor.stopped = [] := by decide +kernel

/-- the first client gets its greeting, the second one its answer and its view; the loop ends when both have left -/
example : outcomeOf ((Server.start emptyEditor).loop twoClients) =
    .ok ([], [(1, false), (2, true)], some 1) := by decide +kernel

/-- a single client that quits and closes its connection -/
theorem quit_alone_crashes : outcomeOf ((Server.start emptyEditor).loop
    [.event editorEnvA true (.join 1), .event editorEnvA true (.message 1 quitLine), .event editorEnvA true (.leave 1)]) =
    .error .missing := by decide +kernel

/-- C43 is false when a client quits: alone, it does not stop the server, and the end of its connection crashes it. -/
theorem C43_quit_refuted :
    (∃ s, (Server.start emptyEditor).loop
      [.event editorEnvA true (.join 1), .event editorEnvA true (.message 1 quitLine)] = .ok (s, none) ∧ s.index = []) ∧
    (Server.start emptyEditor).loop
      [.event editorEnvA true (.join 1), .event editorEnvA true (.message 1 quitLine), .event editorEnvA true (.leave 1)] =
      .error .missing := by
  constructor
  · have h : outcomeOf ((Server.start emptyEditor).loop
        [.event editorEnvA true (.join 1), .event editorEnvA true (.message 1 quitLine)]) = .ok ([], [(1, true)], none) := by
      decide +kernel
    generalize (Server.start emptyEditor).loop
        [.event editorEnvA true (.join 1), .event editorEnvA true (.message 1 quitLine)] = x at h
    cases x with
    | error k => cases h
    | ok y =>
      obtain ⟨s, o⟩ := y
      simp only [outcomeOf, Except.map, Except.ok.injEq, Prod.mk.injEq] at h
      obtain ⟨h1, _, h3⟩ := h
      cases o with
      | none => exact ⟨s, rfl, h1⟩
      | some l => cases h3
  · have h := quit_alone_crashes
    generalize (Server.start emptyEditor).loop
        [.event editorEnvA true (.join 1), .event editorEnvA true (.message 1 quitLine),
          .event editorEnvA true (.leave 1)] = x at h
    cases x with
    | error k => simpa [outcomeOf, Except.map] using h
    | ok y => cases h

end Ced.Props

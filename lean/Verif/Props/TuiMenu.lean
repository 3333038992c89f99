import Verif.Props.Tui
import Verif.Spec.TuiMenu

/-!
# The menu on the terminal, and the keys that are meant for it (C103)
-/

namespace Ced.Props
open Spec Tui

variable {T : Type} {o : Ornament T} {p : Paint T} {parse : Str → Option Json} {errText : Str → Str}

theorem onScreen_new {picture ds ds0 : List Draw} (h : ds = picture) : OnScreen picture (ds0 ++ ds) :=
  ⟨ds0, [], by rw [h, List.append_nil], List.not_mem_nil⟩

theorem onScreen_over {picture ds ds0 : List Draw} (h : OnScreen picture ds0) (hd : Draw.clear ∉ ds) : OnScreen picture (ds0 ++ ds) := by
  obtain ⟨b, a, rfl, ha⟩ := h
  exact ⟨b, a ++ ds, by simp, by simp [ha, hd]⟩

theorem call_state {c c' : Connection T} {x : Call} (h : c.call x = .ok c') : c'.state = c.state := by
  unfold Connection.call at h
  obtain ⟨⟨c1, id⟩, h1, h⟩ := bind_inv h
  cases h
  unfold Connection.requestId at h1
  split at h1
  · cases h1; rfl
  · cases h1

theorem clear_status {w h : Nat} {s : ConnectionState T} {ds : List Draw} (hd : drawStatus p w h s = .ok ds) : Draw.clear ∉ ds := by
  unfold drawStatus at hd
  obtain ⟨x, _, hd⟩ := bind_inv hd
  cases hd
  simp

theorem clear_rows {h x y : Nat} {lines : List T} {ds : List Draw} (hd : hintRows p h x lines y = .ok ds) : Draw.clear ∉ ds := by
  induction lines generalizing y ds with
  | nil => cases hd; exact List.not_mem_nil
  | cons l lines ih =>
    rw [hintRows] at hd
    obtain ⟨y', h1, hd⟩ := bind_inv hd
    split at hd
    · cases hd; simp
    · obtain ⟨ds1, h2, hd⟩ := bind_inv hd
      cases hd
      simp [ih h2]

theorem clear_hint {w h : Nat} {hint : List T} {ds : List Draw} (hd : drawHint p w h hint = .ok ds) : Draw.clear ∉ ds := by
  unfold drawHint at hd
  obtain ⟨f, h1, hd⟩ := bind_inv hd
  obtain ⟨x, h2, hd⟩ := bind_inv hd
  obtain ⟨y, h3, hd⟩ := bind_inv hd
  exact clear_rows hd

/-- What the treatment of an event does to the menu and the screen. -/
inductive Treats (p : Paint T) (t t' : Term T) (ds : List Draw) : Event T → Prop
  | over {e : Event T} (hs : t'.connection.state = t.connection.state) (hw : t'.width = t.width) (hh : t'.height = t.height)
      (hc : Draw.clear ∉ ds) (h1 : e ≠ .drawView) (h2 : ∀ m, e ≠ .drawMenu m) : Treats p t t' ds e
  | menu {e : Event T} {m : RemoteMenu T} (hm : t'.connection.state.menu = some m)
      (ho : t.connection.state.menu = some m ∨ ∃ k m0, e = .input k ∧ Decides k ∧ t.connection.state.menu = some m0)
      (hd : drawMenu p t'.width t'.height m = .ok ds) (h1 : e ≠ .drawView) (h2 : ∀ m, e ≠ .drawMenu m) : Treats p t t' ds e
  | view {e : Event T} (hm : t'.connection.state.menu = none) (hv : t'.connection.state.view = t.connection.state.view)
      (ho : t.connection.state.menu = none ∨ ∃ k, e = .input k ∧ Decides k)
      (hd : drawView p t'.width t'.height t'.connection.state = .ok ds) (h1 : e ≠ .drawView) (h2 : ∀ m, e ≠ .drawMenu m) :
      Treats p t t' ds e
  | drawMenu {m : RemoteMenu T} (ht : t' = t) (hd : drawMenu p t.width t.height m = .ok ds) : Treats p t t' ds (.drawMenu m)
  | drawView (ht : t' = t) (hd : drawView p t.width t.height t.connection.state = .ok ds) : Treats p t t' ds .drawView

theorem treats_call {t t' : Term T} {ds : List Draw} {e : Event T} {x : Call} (h : t.call x = .ok (t', ds))
    (h1 : e ≠ .drawView) (h2 : ∀ m, e ≠ .drawMenu m) : Treats p t t' ds e := by
  obtain ⟨c, hc, h⟩ := bind_inv h
  cases h
  exact .over (call_state hc) rfl rfl List.not_mem_nil h1 h2

theorem treats {t t' : Term T} {e : Event T} {ds : List Draw} (h : t.treat p e = .ok (t', ds)) : Treats p t t' ds e := by
  cases e with
  | drawMenu m => obtain ⟨d, h1, h⟩ := bind_inv h; cases h; exact .drawMenu rfl h1
  | drawView => obtain ⟨d, h1, h⟩ := bind_inv h; cases h; exact .drawView rfl h1
  | drawHint m => obtain ⟨d, h1, h⟩ := bind_inv h; cases h; exact .over rfl rfl rfl (clear_hint h1) (by simp) (by simp)
  | drawStatus => obtain ⟨d, h1, h⟩ := bind_inv h; cases h; exact .over rfl rfl rfl (clear_status h1) (by simp) (by simp)
  | error msg => exact treats_call h (by simp) (by simp)
  | resize w hh =>
    have h : t.resize p w hh = .ok (t', ds) := h
    unfold Term.resize at h
    split at h
    · dsimp only at h
      split at h
      · next m hm => obtain ⟨d, h1, h⟩ := bind_inv h; cases h; exact .menu hm (.inl hm) h1 (by simp) (by simp)
      · next hm => obtain ⟨d, h1, h⟩ := bind_inv h; cases h; exact .view hm rfl (.inl hm) h1 (by simp) (by simp)
    · cases h; exact .over rfl rfl rfl List.not_mem_nil (by simp) (by simp)
  | input k =>
    have h : t.handleInput p k = .ok (t', ds) := h
    unfold Term.handleInput at h
    split at h
    · cases h; exact .over rfl rfl rfl List.not_mem_nil (by simp) (by simp)
    · rename_i ev hev
      have hcode : toKey k.code = some ev.key := by
        unfold Pressed.event at hev
        cases hk : toKey k.code with
        | none => rw [hk] at hev; cases hev
        | some x => rw [hk] at hev; cases hev; rfl
      split at h
      · rename_i m hm
        unfold Term.menuKey at h
        split at h
        · next hkey =>
          have hd : Decides k := by
            rw [hkey] at hcode
            cases hc : k.code <;> rw [hc] at hcode <;> simp [toKey] at hcode
            exact .inl hc
          unfold Term.view at h
          obtain ⟨d, h1, h⟩ := bind_inv h
          cases h
          exact .view rfl rfl (.inr ⟨k, rfl, hd⟩) h1 (by simp) (by simp)
        · next hkey =>
          have hd : Decides k := by
            rw [hkey] at hcode
            cases hc : k.code <;> rw [hc] at hcode <;> simp [toKey] at hcode
            exact .inr (.inl hc)
          obtain ⟨c1, h1, h⟩ := bind_inv h
          unfold Term.view at h
          obtain ⟨d, h2, h⟩ := bind_inv h
          cases h
          unfold Connection.menuSelect at h1
          rw [hm] at h1
          obtain ⟨v, h3, h1⟩ := bind_inv h1
          obtain ⟨c2, h4, h1⟩ := bind_inv h1
          cases h1
          refine .view rfl ?_ (.inr ⟨k, rfl, hd⟩) h2 (by simp) (by simp)
          show c2.state.view = _
          rw [call_state h4]
        · next hkey =>
          have hd : Decides k := by
            rw [hkey] at hcode
            cases hc : k.code <;> rw [hc] at hcode <;> simp [toKey] at hcode
            exact .inr (.inr (.inl hc))
          unfold Term.menu at h
          obtain ⟨m1, h1, h⟩ := bind_inv h
          obtain ⟨d2, h2, h⟩ := bind_inv h
          cases h
          exact .menu (unwrap_inv h1) (.inr ⟨k, m, rfl, hd, hm⟩) h2 (by simp) (by simp)
        · next hkey =>
          have hd : Decides k := by
            rw [hkey] at hcode
            cases hc : k.code <;> rw [hc] at hcode <;> simp [toKey] at hcode
            exact .inr (.inr (.inr hc))
          obtain ⟨c1, h1, h⟩ := bind_inv h
          unfold Term.menu at h
          obtain ⟨d, h2, h⟩ := bind_inv h
          obtain ⟨d2, h3, h⟩ := bind_inv h
          cases h
          exact .menu (unwrap_inv h2) (.inr ⟨k, m, rfl, hd, hm⟩) h3 (by simp) (by simp)
        · exact treats_call h (by simp) (by simp)
        · exact treats_call h (by simp) (by simp)
        · cases h; exact .over rfl rfl rfl List.not_mem_nil (by simp) (by simp)
      · unfold Term.plainKey at h
        rcases ite_inv h with ⟨_, h⟩ | ⟨_, h⟩
        · cases h; exact .over rfl rfl rfl List.not_mem_nil (by simp) (by simp)
        rcases ite_inv h with ⟨_, h⟩ | ⟨_, h⟩
        · exact treats_call h (by simp) (by simp)
        rcases ite_inv h with ⟨_, h⟩ | ⟨_, h⟩
        · exact treats_call h (by simp) (by simp)
        rcases ite_inv h with ⟨_, h⟩ | ⟨_, h⟩
        · exact treats_call h (by simp) (by simp)
        rcases ite_inv h with ⟨_, h⟩ | ⟨_, h⟩
        · exact treats_call h (by simp) (by simp)
        rcases ite_inv h with ⟨_, h⟩ | ⟨_, h⟩
        · exact treats_call h (by simp) (by simp)
        rcases ite_inv h with ⟨_, h⟩ | ⟨_, h⟩
        · cases h
        split at h
        · exact treats_call h (by simp) (by simp)
        · exact treats_call h (by simp) (by simp)
        · cases h; exact .over rfl rfl rfl List.not_mem_nil (by simp) (by simp)

/-- What a line of the server does to the menu and the view of the client. -/
theorem receive_cases (c : Connection T) (l : Str) :
    (∃ m, (c.receive o parse l).2 = .menu m ∧ (c.receive o parse l).1.state.menu = some m) ∨
    ((c.receive o parse l).1.state.menu = c.state.menu ∧ ∃ x, (c.receive o parse l).2 = .view x) ∨
    ((c.receive o parse l).1.state.menu = c.state.menu ∧ ∃ x, (c.receive o parse l).2 = .echo x) ∨
    ((c.receive o parse l).1.state.menu = c.state.menu ∧ (c.receive o parse l).1.state.view = c.state.view ∧
      (∀ x, (c.receive o parse l).2 ≠ .view x) ∧ (∀ x, (c.receive o parse l).2 ≠ .echo x) ∧ ∀ x, (c.receive o parse l).2 ≠ .menu x) := by
  unfold Connection.receive
  split
  · rename_i e he
    cases e with
    | response r => exact .inr (.inr (.inr ⟨rfl, rfl, by simp [ConnectionState.eventUpdate], by simp [ConnectionState.eventUpdate], by simp [ConnectionState.eventUpdate]⟩))
    | notification n =>
      dsimp only
      unfold ConnectionState.eventUpdate
      dsimp only
      split
      · split
        · exact .inr (.inr (.inl ⟨rfl, _, rfl⟩))
        · exact .inr (.inr (.inr ⟨rfl, rfl, by simp, by simp, by simp⟩))
      split
      · refine .inr (.inr (.inr ⟨rfl, rfl, ?_, ?_, ?_⟩)) <;> intro x hx <;>
          (cases hr : Notification.read (Reads.hint o) n <;> rw [hr] at hx <;> cases hx)
      split
      · split <;> exact .inr (.inr (.inr ⟨rfl, rfl, by simp, by simp, by simp⟩))
      split
      · split
        · exact .inl ⟨_, rfl, rfl⟩
        · exact .inr (.inr (.inr ⟨rfl, rfl, by simp, by simp, by simp⟩))
      split
      · split <;> exact .inr (.inr (.inr ⟨rfl, rfl, by simp, by simp, by simp⟩))
      split
      · split
        · exact .inr (.inl ⟨rfl, _, rfl⟩)
        · exact .inr (.inr (.inr ⟨rfl, rfl, by simp, by simp, by simp⟩))
      · exact .inr (.inr (.inr ⟨rfl, rfl, by simp, by simp, by simp⟩))
  · exact .inr (.inr (.inr ⟨rfl, rfl, by simp, by simp, by simp⟩))

/-- No drawing of a view or of a menu is waiting. -/
def NoneWaits (q : List (Event T)) : Prop := .drawView ∉ q ∧ ∀ m, .drawMenu m ∉ q

/-- The screen agrees, or will when the events that wait are treated. -/
def WillAgree (p : Paint T) (a : App T) (ds : List Draw) : Prop :=
  match a.term.connection.state.menu with
  | some m => (∃ q1 q2, a.queue = q1 ++ .drawMenu m :: q2 ∧ (∀ k, .input k ∈ q1 → ¬ Decides k) ∧ NoneWaits q2) ∨
      NoneWaits a.queue ∧ ScreenAgrees p a.term ds
  | none => (∀ m, .drawMenu m ∉ a.queue) ∧ (.drawView ∈ a.queue ∨ ScreenAgrees p a.term ds)

theorem willAgree_some {a : App T} {ds : List Draw} {m : RemoteMenu T} (hm : a.term.connection.state.menu = some m) :
    WillAgree p a ds ↔ (∃ q1 q2, a.queue = q1 ++ .drawMenu m :: q2 ∧ (∀ k, .input k ∈ q1 → ¬ Decides k) ∧ NoneWaits q2) ∨
      NoneWaits a.queue ∧ ScreenAgrees p a.term ds := by unfold WillAgree; rw [hm]

theorem willAgree_none {a : App T} {ds : List Draw} (hm : a.term.connection.state.menu = none) :
    WillAgree p a ds ↔ (∀ m, .drawMenu m ∉ a.queue) ∧ (.drawView ∈ a.queue ∨ ScreenAgrees p a.term ds) := by
  unfold WillAgree; rw [hm]

theorem agrees_some {t : Term T} {ds : List Draw} {m : RemoteMenu T} (hm : t.connection.state.menu = some m) :
    ScreenAgrees p t ds ↔ ∃ picture, drawMenu p t.width t.height m = .ok picture ∧ OnScreen picture ds := by
  unfold ScreenAgrees; rw [hm]

theorem agrees_none {t : Term T} {ds : List Draw} (hm : t.connection.state.menu = none) :
    ScreenAgrees p t ds ↔ (Draw.clear ∉ ds ∧ t.connection.state.view = []) ∨
      ∃ s picture, s.view = t.connection.state.view ∧ drawView p t.width t.height s = .ok picture ∧ OnScreen picture ds := by
  unfold ScreenAgrees; rw [hm]

/-- Drawing over the screen, and a change of the state that leaves the menu and the view alone. -/
theorem agrees_over {t t' : Term T} {ds0 ds : List Draw} (h : ScreenAgrees p t ds0)
    (hm : t'.connection.state.menu = t.connection.state.menu) (hv : t'.connection.state.view = t.connection.state.view)
    (hw : t'.width = t.width) (hh : t'.height = t.height) (hc : Draw.clear ∉ ds) : ScreenAgrees p t' (ds0 ++ ds) := by
  cases hx : t.connection.state.menu with
  | some m =>
    obtain ⟨pic, h1, h2⟩ := (agrees_some hx).1 h
    exact (agrees_some (hm.trans hx)).2 ⟨pic, by rw [hw, hh]; exact h1, onScreen_over h2 hc⟩
  | none =>
    refine (agrees_none (hm.trans hx)).2 ?_
    rcases (agrees_none hx).1 h with ⟨h1, h2⟩ | ⟨s, pic, h1, h2, h3⟩
    · exact .inl ⟨by simp [h1, hc], hv.trans h2⟩
    · exact .inr ⟨s, pic, h1.trans hv.symm, by rw [hw, hh]; exact h2, onScreen_over h3 hc⟩

theorem noneWaits_tail {e : Event T} {q : List (Event T)} (h : NoneWaits (e :: q)) : NoneWaits q :=
  ⟨fun hx => h.1 (List.mem_cons_of_mem _ hx), fun m hx => h.2 m (List.mem_cons_of_mem _ hx)⟩

theorem noneWaits_append {q q' : List (Event T)} (h : NoneWaits q) (h' : NoneWaits q') : NoneWaits (q ++ q') :=
  ⟨by simp [h.1, h'.1], fun m => by simp [h.2 m, h'.2 m]⟩

/-- An event that draws neither a view nor a menu comes to wait. -/
theorem willAgree_queue {a a' : App T} {ds : List Draw} {e : List (Event T)} (h : WillAgree p a ds) (he : NoneWaits e)
    (hm : a'.term.connection.state.menu = a.term.connection.state.menu)
    (hv : a'.term.connection.state.view = a.term.connection.state.view) (hw : a'.term.width = a.term.width)
    (hh : a'.term.height = a.term.height) (hq : a'.queue = a.queue ++ e) : WillAgree p a' ds := by
  have over : ScreenAgrees p a.term ds → ScreenAgrees p a'.term ds := fun hs => by
    have := agrees_over hs hm hv hw hh (ds := []) List.not_mem_nil
    rwa [List.append_nil] at this
  cases hx : a.term.connection.state.menu with
  | some m =>
    refine (willAgree_some (hm.trans hx)).2 ?_
    rcases (willAgree_some hx).1 h with ⟨q1, q2, h1, h2, h3⟩ | ⟨h1, h2⟩
    · exact .inl ⟨q1, q2 ++ e, by rw [hq, h1]; simp, h2, noneWaits_append h3 he⟩
    · exact .inr ⟨by rw [hq]; exact noneWaits_append h1 he, over h2⟩
  | none =>
    refine (willAgree_none (hm.trans hx)).2 ?_
    obtain ⟨h1, h2⟩ := (willAgree_none hx).1 h
    refine ⟨fun m => by rw [hq]; simp [h1 m, he.2 m], ?_⟩
    rcases h2 with h2 | h2
    · exact .inl (by rw [hq]; exact List.mem_append_left _ h2)
    · exact .inr (over h2)

theorem willAgree_treat {a : App T} {t : Term T} {e : Event T} {q : List (Event T)} {ds0 ds : List Draw} (h : WillAgree p a ds0)
    (hq : a.queue = e :: q) (ht : Treats p a.term t ds e) : WillAgree p ⟨t, q⟩ (ds0 ++ ds) := by
  cases hx : a.term.connection.state.menu with
  | some m =>
    have h := (willAgree_some hx).1 h
    rw [hq] at h
    cases ht with
    | over hs hw hh hc h1 h2 =>
      refine (willAgree_some (a := ⟨t, q⟩) (m := m) (by show t.connection.state.menu = _; rw [hs, hx])).2 ?_
      rcases h with ⟨q1, q2, e1, e2, e3⟩ | ⟨e1, e2⟩
      · cases q1 with
        | nil => cases e1; exact absurd rfl (h2 m)
        | cons y q1 =>
          cases e1
          exact .inl ⟨q1, q2, rfl, fun k hk => e2 k (List.mem_cons_of_mem _ hk), e3⟩
      · exact .inr ⟨noneWaits_tail e1, agrees_over e2 (by rw [hs]) (by rw [hs]) hw hh hc⟩
    | @menu _ m' hm ho hd h1 h2 =>
      refine (willAgree_some (a := ⟨t, q⟩) hm).2 ?_
      rcases h with ⟨q1, q2, e1, e2, e3⟩ | ⟨e1, e2⟩
      · cases q1 with
        | nil => cases e1; exact absurd rfl (h2 m)
        | cons y q1 =>
          cases e1
          rcases ho with ho | ⟨k, m0, rfl, hk, _⟩
          · rw [hx] at ho
            cases ho
            exact .inl ⟨q1, q2, rfl, fun k hk => e2 k (List.mem_cons_of_mem _ hk), e3⟩
          · exact absurd hk (e2 k List.mem_cons_self)
      · exact .inr ⟨noneWaits_tail e1, (agrees_some hm).2 ⟨ds, hd, onScreen_new rfl⟩⟩
    | view hm hv ho hd h1 h2 =>
      rcases h with ⟨q1, q2, e1, e2, e3⟩ | ⟨e1, e2⟩
      · rcases ho with ho | ⟨k, rfl, hk⟩
        · rw [hx] at ho; cases ho
        · cases q1 with
          | nil => cases e1
          | cons y q1 => cases e1; exact absurd hk (e2 k List.mem_cons_self)
      · exact (willAgree_none (a := ⟨t, q⟩) hm).2 ⟨(noneWaits_tail e1).2, .inr ((agrees_none hm).2 (.inr ⟨_, ds, rfl, hd, onScreen_new rfl⟩))⟩
    | @drawMenu m' hs hd =>
      subst hs
      refine (willAgree_some (a := ⟨a.term, q⟩) hx).2 ?_
      rcases h with ⟨q1, q2, e1, e2, e3⟩ | ⟨e1, e2⟩
      · cases q1 with
        | nil =>
          cases e1
          exact .inr ⟨e3, (agrees_some hx).2 ⟨ds, hd, onScreen_new rfl⟩⟩
        | cons y q1 =>
          cases e1
          exact .inl ⟨q1, q2, rfl, fun k hk => e2 k (List.mem_cons_of_mem _ hk), e3⟩
      · exact absurd List.mem_cons_self (e1.2 m')
    | drawView hs hd =>
      subst hs
      refine (willAgree_some (a := ⟨a.term, q⟩) hx).2 ?_
      rcases h with ⟨q1, q2, e1, e2, e3⟩ | ⟨e1, e2⟩
      · cases q1 with
        | nil => cases e1
        | cons y q1 =>
          cases e1
          exact .inl ⟨q1, q2, rfl, fun k hk => e2 k (List.mem_cons_of_mem _ hk), e3⟩
      · exact absurd List.mem_cons_self e1.1
  | none =>
    obtain ⟨h0, h⟩ := (willAgree_none hx).1 h
    rw [hq] at h h0
    have h0' : ∀ m, .drawMenu m ∉ q := fun m hm => h0 m (List.mem_cons_of_mem _ hm)
    cases ht with
    | over hs hw hh hc h1 h2 =>
      refine (willAgree_none (a := ⟨t, q⟩) (by show t.connection.state.menu = _; rw [hs, hx])).2 ⟨h0', ?_⟩
      rcases h with h | h
      · rcases List.mem_cons.1 h with h | h
        · exact absurd h.symm h1
        · exact .inl h
      · exact .inr (agrees_over h (by rw [hs]) (by rw [hs]) hw hh hc)
    | @menu _ m' hm ho hd h1 h2 =>
      rcases ho with ho | ⟨k, m0, rfl, hk, ho⟩ <;> rw [hx] at ho <;> cases ho
    | view hm hv ho hd h1 h2 =>
      exact (willAgree_none (a := ⟨t, q⟩) hm).2 ⟨h0', .inr ((agrees_none hm).2 (.inr ⟨_, ds, rfl, hd, onScreen_new rfl⟩))⟩
    | @drawMenu m' hs hd => exact absurd List.mem_cons_self (h0 m')
    | drawView hs hd =>
      subst hs
      exact (willAgree_none (a := ⟨a.term, q⟩) hx).2 ⟨h0', .inr ((agrees_none hx).2 (.inr ⟨_, ds, rfl, hd, onScreen_new rfl⟩))⟩

theorem willAgree_run {steps : List Tui.Step} {a a' : App T} {ds0 ds : List Draw} (h0 : WillAgree p a ds0)
    (ht : AllInTurn o p parse errText a steps) (h : a.run o p parse errText steps = .ok (a', ds)) : WillAgree p a' (ds0 ++ ds) := by
  induction steps generalizing a ds0 ds with
  | nil => cases h; simpa using h0
  | cons s ss ih =>
    obtain ⟨⟨a1, d1⟩, h1, h⟩ := bind_inv h
    obtain ⟨⟨a2, d2⟩, h2, h⟩ := bind_inv h
    cases h
    rw [← List.append_assoc]
    refine ih ?_ (ht.2 _ _ h1) h2
    have ht := ht.1
    cases s with
    | key k => cases h1; rw [List.append_nil]; exact willAgree_queue h0 (e := [.input k]) ⟨by simp, by simp⟩ rfl rfl rfl rfl rfl
    | size w hh => cases h1; rw [List.append_nil]; exact willAgree_queue h0 (e := [.resize w hh]) ⟨by simp, by simp⟩ rfl rfl rfl rfl rfl
    | fault text => cases h1; rw [List.append_nil]; exact willAgree_queue h0 (e := [.error _]) ⟨by simp, by simp⟩ rfl rfl rfl rfl rfl
    | treat =>
      simp only [App.step] at h1
      rcases ite_inv h1 with ⟨_, h1⟩ | ⟨_, h1⟩
      · cases h1; rw [List.append_nil]; exact h0
      · cases hq : a.queue with
        | nil => simp only [hq] at h1; cases h1; rw [List.append_nil]; exact h0
        | cons e q =>
          simp only [hq] at h1
          obtain ⟨⟨t, d⟩, ht, h1⟩ := bind_inv h1
          cases h1
          exact willAgree_treat h0 hq (treats ht)
    | line l =>
      simp only [App.step, Except.ok.injEq, Prod.mk.injEq] at h1
      obtain ⟨rfl, rfl⟩ := h1
      rw [List.append_nil]
      simp only [InTurn] at ht
      rcases receive_cases (o := o) (parse := parse) a.term.connection l with ⟨m, e1, e2⟩ | ⟨e1, x, e2⟩ | ⟨e1, x, e2⟩ | ⟨e1, e2, e3, e4, e5⟩
      · rw [e1] at ht
        refine (willAgree_some (m := m) e2).2 (.inl ⟨a.queue, [], ?_, ht, ⟨List.not_mem_nil, fun _ => List.not_mem_nil⟩⟩)
        show a.queue ++ (eventOf _ (Connection.receive o parse a.term.connection l).2).toList = _
        rw [e1]; rfl
      · rw [e2] at ht
        refine (willAgree_none (e1.trans ht)).2 ⟨fun m hm => ?_, .inl ?_⟩
        · have hm : _ ∈ a.queue ++ (eventOf _ (Connection.receive o parse a.term.connection l).2).toList := hm
          rw [e2] at hm
          simp [eventOf, ((willAgree_none ht).1 h0).1 m] at hm
        · show _ ∈ a.queue ++ (eventOf _ (Connection.receive o parse a.term.connection l).2).toList
          rw [e2]; simp [eventOf]
      · rw [e2] at ht
        refine (willAgree_none (e1.trans ht)).2 ⟨fun m hm => ?_, .inl ?_⟩
        · have hm : _ ∈ a.queue ++ (eventOf _ (Connection.receive o parse a.term.connection l).2).toList := hm
          rw [e2] at hm
          simp [eventOf, ((willAgree_none ht).1 h0).1 m] at hm
        · show _ ∈ a.queue ++ (eventOf _ (Connection.receive o parse a.term.connection l).2).toList
          rw [e2]; simp [eventOf]
      · refine willAgree_queue h0 (e := (eventOf (errText l) (Connection.receive o parse a.term.connection l).2).toList) ?_ e1 e2 rfl rfl rfl
        cases hev : (Connection.receive o parse a.term.connection l).2 with
        | view x => exact absurd hev (e3 x)
        | echo x => exact absurd hev (e4 x)
        | menu x => exact absurd hev (e5 x)
        | hint x => exact ⟨by simp [eventOf], by simp [eventOf]⟩
        | info x y => exact ⟨by simp [eventOf], by simp [eventOf]⟩
        | status x => exact ⟨by simp [eventOf], by simp [eventOf]⟩
        | connErr => exact ⟨by simp [eventOf], by simp [eventOf]⟩
        | noop => exact ⟨by simp [eventOf], by simp [eventOf]⟩

theorem run_draws {s : Tui.Step} {ss : List Tui.Step} {a a' : App T} {ds : List Draw}
    (h : a.run o p parse errText (s :: ss) = .ok (a', ds)) :
    ∃ a1 d1 d2, a.step o p parse errText s = .ok (a1, d1) ∧ a1.run o p parse errText ss = .ok (a', d2) ∧ ds = d1 ++ d2 := by
  obtain ⟨⟨a1, d1⟩, h1, h⟩ := bind_inv h
  obtain ⟨⟨a2, d2⟩, h2, h⟩ := bind_inv h
  cases h
  exact ⟨a1, d1, d2, h1, h2, rfl⟩

/-! ## The claims -/

/-- C103: whatever is typed and whatever the server sends, in any order of the tasks in which user and server do not get in each
other's way: whenever everything that waited was treated, an open menu is on the screen, as it is, and if none is open the view is. -/
theorem C103_agrees {w h : Nat} {files : List Str} {t : Term T} (ht : Term.new w h files = .ok t) {steps : List Tui.Step}
    (hturn : AllInTurn o p parse errText ⟨t, []⟩ steps) {a : App T} {ds : List Draw}
    (hrun : App.run o p parse errText ⟨t, []⟩ steps = .ok (a, ds)) (hq : a.queue = []) : ScreenAgrees p a.term ds := by
  obtain ⟨_, hs, _⟩ := new_numbered ht
  have h0 : WillAgree p (⟨t, []⟩ : App T) [] := by
    have hm : t.connection.state.menu = none := by rw [hs]; rfl
    refine (willAgree_none hm).2 ⟨fun _ => List.not_mem_nil, .inr ((agrees_none hm).2 (.inl ⟨List.not_mem_nil, ?_⟩))⟩
    show t.connection.state.view = []
    rw [hs]; rfl
  have := willAgree_run h0 hturn hrun
  rw [List.nil_append] at this
  cases hm : a.term.connection.state.menu with
  | some m =>
    rcases (willAgree_some hm).1 this with ⟨q1, q2, e, _⟩ | ⟨_, h⟩
    · rw [hq] at e
      cases q1 <;> cases e
    · exact h
  | none =>
    obtain ⟨_, h | h⟩ := (willAgree_none hm).1 this
    · rw [hq] at h; cases h
    · exact h

/-- C103: then enter asks for the entry that is highlighted on the screen (the row of `rows` that is drawn reversed). -/
theorem C103_enter {w h : Nat} {files : List Str} {t : Term T} (ht : Term.new w h files = .ok t) {steps : List Tui.Step}
    (hturn : AllInTurn o p parse errText ⟨t, []⟩ steps) {a : App T} {ds : List Draw}
    (hrun : App.run o p parse errText ⟨t, []⟩ steps = .ok (a, ds)) (hq : a.queue = []) (he : a.term.exitPending = false)
    {m : RemoteMenu T} (hm : a.term.connection.state.menu = some m) (hh : a.term.height ≤ 65535) {calls : List Call}
    (hn : Numbered a.term.connection calls) {ctrl alt shift : Bool} {a' : App T} {ds' : List Draw}
    (hent : a.run o p parse errText [.key ⟨.enter, ctrl, alt, shift⟩, .treat] = .ok (a', ds')) :
    (∃ top rows, OnScreen ([.clear, .at 0 0 true top] ++ entryDraws m.selected 0 rows) ds ∧
      List.Forall₂ (EntryShown p a.term.width) (m.entries.take (a.term.height - 1)) rows) ∧
    Numbered a'.term.connection (calls ++ ((m.entries[m.selected]?).map fun e =>
      Call.menuSelect m.command (if e.value = [] then m.search else e.value)).toList) ∧
    a'.term.connection.state.menu = none := by
  constructor
  · obtain ⟨pic, h1, h2⟩ := (agrees_some hm).1 (C103_agrees ht hturn hrun hq)
    obtain ⟨top, rows, rfl, _, _, h3⟩ := C74_drawn hh h1
    exact ⟨top, rows, h2, h3⟩
  · obtain ⟨b1, _, _, k1, h⟩ := run_cons hent
    cases k1
    obtain ⟨b2, _, _, k2, h⟩ := run_cons h
    cases h
    obtain ⟨t2, k2', rfl⟩ := treat_one (e := .input ⟨.enter, ctrl, alt, shift⟩) (q := []) (by exact he) (by rw [hq]; rfl) k2
    obtain ⟨i1, _, i3, _⟩ := C73_menu (k := ⟨.enter, ctrl, alt, shift⟩) hm rfl hn k2'
    refine ⟨?_, i3 (.inr rfl)⟩
    cases hx : m.entries[m.selected]? with
    | none => rw [hx] at i1; exact i1
    | some e => rw [hx] at i1; exact i1

theorem escape_treated {t t' : Term T} {ds : List Draw} {m : RemoteMenu T} (hm : t.connection.state.menu = some m) {ctrl alt shift : Bool}
    (h : t.treat p (.input ⟨.esc, ctrl, alt, shift⟩) = .ok (t', ds)) :
    t'.connection.state.menu = none ∧ t'.exitPending = t.exitPending ∧ t'.connection.sent = t.connection.sent ∧
      drawView p t'.width t'.height t'.connection.state = .ok ds := by
  have hk : t.handleInput p ⟨.esc, ctrl, alt, shift⟩ = .ok (t', ds) := h
  unfold Term.handleInput at hk
  simp only [Pressed.event, toKey, Option.map_some, hm, Term.menuKey, Term.view] at hk
  obtain ⟨d, h1, hk⟩ := bind_inv hk
  cases hk
  exact ⟨rfl, rfl, rfl, h1⟩

theorem down_treated {t t' : Term T} {ds : List Draw} {m : RemoteMenu T} (hm : t.connection.state.menu = some m)
    (htwo : m.selected + 1 < m.entries.length) {ctrl alt shift : Bool}
    (h : t.treat p (.input ⟨.down, ctrl, alt, shift⟩) = .ok (t', ds)) :
    t'.connection.state.menu = some { m with selected := m.selected + 1 } ∧ t'.exitPending = t.exitPending := by
  have hk : t.handleInput p ⟨.down, ctrl, alt, shift⟩ = .ok (t', ds) := h
  unfold Term.handleInput at hk
  simp only [Pressed.event, toKey, Option.map_some, hm, Term.menuKey, Term.menu, Connection.menuNext] at hk
  obtain ⟨c1, e1, hk⟩ := bind_inv hk
  obtain ⟨m1, e2, hk⟩ := bind_inv hk
  obtain ⟨d, e3, hk⟩ := bind_inv hk
  cases hk
  obtain ⟨m2, e4, e1⟩ := bind_inv e1
  cases e1
  refine ⟨?_, rfl⟩
  unfold RemoteMenu.selectNext at e4
  obtain ⟨x, e5, e4⟩ := bind_inv e4
  unfold subChecked at e5
  split at e5 <;> cases e5
  rw [if_pos (by omega)] at e4
  cases e4
  rfl

theorem char_treated {t t' : Term T} {ds : List Draw} {m : RemoteMenu T} (hm : t.connection.state.menu = some m) {c : Char}
    (h : t.treat p (.input ⟨.char c, false, false, false⟩) = .ok (t', ds)) :
    t'.connection.state = t.connection.state ∧ t'.exitPending = t.exitPending := by
  have hk : t.handleInput p ⟨.char c, false, false, false⟩ = .ok (t', ds) := h
  unfold Term.handleInput at hk
  simp only [Pressed.event, toKey, Option.map_some, hm, Term.menuKey] at hk
  obtain ⟨c1, e1, rfl, rfl⟩ := term_call hk
  exact ⟨call_state e1, rfl⟩

/-- C103: escape always closes the menu and puts the view on the screen, whatever was there. -/
theorem C103_escape {a a' : App T} {ds0 ds : List Draw} {m : RemoteMenu T} (hq : a.queue = []) (he : a.term.exitPending = false)
    (hm : a.term.connection.state.menu = some m) {ctrl alt shift : Bool}
    (h : a.run o p parse errText [.key ⟨.esc, ctrl, alt, shift⟩, .treat] = .ok (a', ds)) :
    a'.term.connection.state.menu = none ∧ a'.queue = [] ∧ a'.term.connection.sent = a.term.connection.sent ∧
    ScreenAgrees p a'.term (ds0 ++ ds) := by
  obtain ⟨b1, _, _, k1, hnext, hds⟩ := run_draws h
  clear h
  subst hds
  have h := hnext
  clear hnext
  cases k1
  obtain ⟨b2, d2, _, k2, hnext, hds⟩ := run_draws h
  clear h
  subst hds
  have h := hnext
  clear hnext
  cases h
  obtain ⟨t2, k2', rfl⟩ := treat_one (e := .input ⟨.esc, ctrl, alt, shift⟩) (q := []) (by exact he) (by rw [hq]; rfl) k2
  obtain ⟨i1, i2, i3, i4⟩ := escape_treated hm k2'
  refine ⟨i1, rfl, by rw [i3], (agrees_none i1).2 (.inr ⟨_, d2, rfl, i4, ?_⟩)⟩
  simpa using onScreen_new (ds0 := ds0) (ds := d2) rfl

/-! ## What does not hold without taking turns -/

/-- a line of the server is read, while the main loop is busy -/
theorem line_step {a a' : App T} {l : Str} {d : List Draw} (h : a.step o p parse errText (.line l) = .ok (a', d)) :
    a' = ⟨{ a.term with connection := (a.term.connection.receive o parse l).1 },
      a.queue ++ (eventOf (errText l) (a.term.connection.receive o parse l).2).toList⟩ ∧ d = [] := by
  simp only [App.step, Except.ok.injEq, Prod.mk.injEq] at h
  exact ⟨h.1.symm, h.2.symm⟩

/-- Not so: escape, pressed before the menu that was asked for last is drawn, closes the menu, but that menu is drawn afterwards and
stays on the screen, while the keys go to the editor. -/
theorem C103_stale_refuted (ho : OrnamentOk o) (hp : JsonText.ReadsBack parse) {a a' : App T} {ds : List Draw} {m : RemoteMenu T}
    (hq : a.queue = []) (he : a.term.exitPending = false) (hm : a.term.connection.state.menu = some m) (ctrl alt shift : Bool)
    (command title search : Str) (entries : List MenuParamsEntry)
    (h : a.run o p parse errText [.key ⟨.esc, ctrl, alt, shift⟩,
      .line ((Wire.note (.menu command title search entries)).encode o).write, .treat, .treat] = .ok (a', ds)) :
    a'.queue = [] ∧ a'.term.connection.state.menu = none ∧ ∃ picture,
      drawMenu p a'.term.width a'.term.height (seenMenu o command title search entries) = .ok picture ∧ OnScreen picture ds := by
  obtain ⟨b1, _, _, k1, hnext, hds⟩ := run_draws h
  clear h
  subst hds
  have h := hnext
  clear hnext
  cases k1
  obtain ⟨b2, _, _, k1, hnext, hds⟩ := run_draws h
  clear h
  subst hds
  have h := hnext
  clear hnext
  obtain ⟨rfl, rfl⟩ := line_step k1
  obtain ⟨b3, d3, _, k3, hnext, hds⟩ := run_draws h
  clear h
  subst hds
  have h := hnext
  clear hnext
  have hr := receive_menu ho hp a.term.connection command title search entries
  dsimp only at k3 h
  rw [hr, hq] at k3
  obtain ⟨t3, k3', rfl⟩ := treat_one (e := .input ⟨.esc, ctrl, alt, shift⟩) (q := [.drawMenu (seenMenu o command title search entries)])
    (by exact he) rfl k3
  obtain ⟨i1, i2, _, _⟩ := escape_treated rfl k3'
  obtain ⟨b4, d4, _, k4, hnext, hds⟩ := run_draws h
  clear h
  subst hds
  have h := hnext
  clear hnext
  cases h
  obtain ⟨t4, k4', rfl⟩ := treat_one (e := .drawMenu (seenMenu o command title search entries)) (q := []) (by exact i2.trans he) rfl k4
  obtain ⟨d, h1, k4'⟩ := bind_inv k4'
  cases k4'
  refine ⟨rfl, i1, d4, h1, ?_⟩
  simpa using onScreen_new (ds0 := d3) (ds := d4) rfl

/-- Not so: `down`, pressed before the menu that was asked for last is drawn, moves in it, but it is drawn as it came: the first
entry is highlighted on the screen and enter chooses the second. -/
theorem C103_highlight_refuted (ho : OrnamentOk o) (hp : JsonText.ReadsBack parse) {a a' : App T} {ds : List Draw} {m : RemoteMenu T}
    (hq : a.queue = []) (he : a.term.exitPending = false) (hm : a.term.connection.state.menu = some m) (ctrl alt shift : Bool)
    (command title search : Str) (entries : List MenuParamsEntry) (htwo : 2 ≤ entries.length)
    (h : a.run o p parse errText [.key ⟨.down, ctrl, alt, shift⟩,
      .line ((Wire.note (.menu command title search entries)).encode o).write, .treat, .treat] = .ok (a', ds)) :
    a'.queue = [] ∧ a'.term.connection.state.menu = some { seenMenu o command title search entries with selected := 1 } ∧ ∃ picture,
      drawMenu p a'.term.width a'.term.height { seenMenu o command title search entries with selected := 0 } = .ok picture ∧
      OnScreen picture ds := by
  obtain ⟨b1, _, _, k1, hnext, hds⟩ := run_draws h
  clear h
  subst hds
  have h := hnext
  clear hnext
  cases k1
  obtain ⟨b2, _, _, k1, hnext, hds⟩ := run_draws h
  clear h
  subst hds
  have h := hnext
  clear hnext
  obtain ⟨rfl, rfl⟩ := line_step k1
  obtain ⟨b3, d3, _, k3, hnext, hds⟩ := run_draws h
  clear h
  subst hds
  have h := hnext
  clear hnext
  have hr := receive_menu ho hp a.term.connection command title search entries
  dsimp only at k3 h
  rw [hr, hq] at k3
  obtain ⟨t3, k3', rfl⟩ := treat_one (e := .input ⟨.down, ctrl, alt, shift⟩) (q := [.drawMenu (seenMenu o command title search entries)])
    (by exact he) rfl k3
  obtain ⟨i1, i2⟩ := down_treated (m := seenMenu o command title search entries) rfl
    (by simp only [seenMenu, List.length_map]; omega) k3'
  obtain ⟨b4, d4, _, k4, hnext, hds⟩ := run_draws h
  clear h
  subst hds
  have h := hnext
  clear hnext
  cases h
  obtain ⟨t4, k4', rfl⟩ := treat_one (e := .drawMenu (seenMenu o command title search entries)) (q := []) (by exact i2.trans he) rfl k4
  obtain ⟨d, h1, k4'⟩ := bind_inv k4'
  cases k4'
  refine ⟨rfl, i1, d4, h1, ?_⟩
  simpa using onScreen_new (ds0 := d3) (ds := d4) rfl

/-- Not so: a view or a message (of another client, say) that arrives while a menu is open puts the view on the screen; the menu
stays open, and the keys go to it. -/
theorem C103_hidden_refuted (ho : OrnamentOk o) (hp : JsonText.ReadsBack parse) {a a' : App T} {ds : List Draw} {m : RemoteMenu T}
    (hq : a.queue = []) (he : a.term.exitPending = false) (hm : a.term.connection.state.menu = some m) {n : Note} (hf : Spec.Fits n)
    (hn : (∃ items, n = .view items) ∨ ∃ text face, n = .echo text face)
    (h : a.run o p parse errText [.line ((Wire.note n).encode o).write, .treat] = .ok (a', ds)) :
    a'.queue = [] ∧ a'.term.connection.state.menu = some m ∧ ∃ picture,
      drawView p a'.term.width a'.term.height a'.term.connection.state = .ok picture ∧ OnScreen picture ds := by
  obtain ⟨b2, _, _, k1, hnext, hds⟩ := run_draws h
  clear h
  subst hds
  have h := hnext
  clear hnext
  obtain ⟨rfl, rfl⟩ := line_step k1
  obtain ⟨b3, d3, _, k3, hnext, hds⟩ := run_draws h
  clear h
  subst hds
  have h := hnext
  clear hnext
  cases h
  have hr := receive_event ho hp hf a.term.connection
  have hev : eventOf (errText ((Wire.note n).encode o).write) (noteEvent o n) = some .drawView := by
    rcases hn with ⟨items, rfl⟩ | ⟨t, f, rfl⟩ <;> rfl
  have hmn : (afterNote o a.term.connection.state n).menu = some m := by
    rcases hn with ⟨items, rfl⟩ | ⟨t, f, rfl⟩ <;> exact hm
  dsimp only at k3
  rw [hr, hq] at k3
  dsimp only at k3
  rw [hev] at k3
  obtain ⟨t3, k3', rfl⟩ := treat_one (e := .drawView) (q := []) (by exact he) rfl k3
  obtain ⟨d, h1, k3'⟩ := bind_inv k3'
  cases k3'
  refine ⟨rfl, hmn, d3, h1, ?_⟩
  simpa using onScreen_new (ds0 := []) (ds := d3) rfl

/-- Not so, even taking turns: a menu that was closed by escape opens again when the answer to what was typed before arrives. -/
theorem C103_reopened_refuted (ho : OrnamentOk o) (hp : JsonText.ReadsBack parse) {a a' : App T} {ds : List Draw} {m : RemoteMenu T}
    (hq : a.queue = []) (he : a.term.exitPending = false) (hm : a.term.connection.state.menu = some m) (c : Char)
    (title : Str) (entries : List MenuParamsEntry) {steps : List Tui.Step}
    (hs : steps = [.key ⟨.char c, false, false, false⟩, .treat, .key ⟨.esc, false, false, false⟩, .treat,
      .line ((Wire.note (.menu m.command title (m.search ++ [c]) entries)).encode o).write, .treat])
    (h : a.run o p parse errText steps = .ok (a', ds)) :
    AllInTurn o p parse errText a steps ∧ a'.queue = [] ∧
    a'.term.connection.state.menu = some (seenMenu o m.command title (m.search ++ [c]) entries) := by
  subst hs
  obtain ⟨b1, _, _, k1, hnext, hds⟩ := run_draws h
  clear h
  subst hds
  have h := hnext
  clear hnext
  have s1 := k1
  cases k1
  obtain ⟨b2, _, _, k2, hnext, hds⟩ := run_draws h
  clear h
  subst hds
  have h := hnext
  clear hnext
  have s2 := k2
  obtain ⟨t2, k2', rfl⟩ := treat_one (e := .input ⟨.char c, false, false, false⟩) (q := []) (by exact he) (by rw [hq]; rfl) k2
  obtain ⟨e1, e2⟩ := char_treated hm k2'
  obtain ⟨b3, _, _, k3, hnext, hds⟩ := run_draws h
  clear h
  subst hds
  have h := hnext
  clear hnext
  have s3 := k3
  cases k3
  obtain ⟨b4, _, _, k4, hnext, hds⟩ := run_draws h
  clear h
  subst hds
  have h := hnext
  clear hnext
  have s4 := k4
  obtain ⟨t4, k4', rfl⟩ := treat_one (e := .input ⟨.esc, false, false, false⟩) (q := []) (by exact e2.trans he) rfl k4
  obtain ⟨i1, i2, _, _⟩ := escape_treated (m := m) (by show t2.connection.state.menu = _; rw [e1]; exact hm) k4'
  have i2 : t4.exitPending = _ := i2.trans e2
  obtain ⟨b5, _, _, k5, hnext, hds⟩ := run_draws h
  clear h
  subst hds
  have h := hnext
  clear hnext
  obtain ⟨rfl, rfl⟩ := line_step k5
  have hr := receive_menu ho hp t4.connection m.command title (m.search ++ [c]) entries
  obtain ⟨b6, _, _, k6, hnext, hds⟩ := run_draws h
  clear h
  subst hds
  have h := hnext
  clear hnext
  cases h
  dsimp only at k6
  rw [hr] at k6
  obtain ⟨t6, k6', rfl⟩ := treat_one (e := .drawMenu (seenMenu o m.command title (m.search ++ [c]) entries)) (q := []) (by exact i2.trans he) rfl k6
  obtain ⟨d, h1, k6'⟩ := bind_inv k6'
  cases k6'
  refine ⟨⟨trivial, fun _ _ x1 => ?_⟩, rfl, rfl⟩
  cases x1
  refine ⟨trivial, fun _ _ x2 => ?_⟩
  rw [s2] at x2
  cases x2
  refine ⟨trivial, fun _ _ x3 => ?_⟩
  cases x3
  refine ⟨trivial, fun _ _ x4 => ?_⟩
  rw [s4] at x4
  cases x4
  refine ⟨?_, fun _ _ x5 => ⟨trivial, fun _ _ _ => trivial⟩⟩
  simp only [InTurn]
  rw [hr]
  intro k hk
  cases hk

/-! ## Examples -/

def decidesB (k : Pressed) : Bool := [Code.esc, .enter, .up, .down].contains k.code

theorem decidesB_ok {k : Pressed} (h : decidesB k = false) : ¬ Decides k := by
  unfold decidesB at h
  rintro (hk | hk | hk | hk) <;> rw [hk] at h <;> revert h <;> decide

def inTurnB (o : Ornament T) (parse : Str → Option Json) (a : App T) : Tui.Step → Bool
  | .line l =>
    match (a.term.connection.receive o parse l).2 with
    | .menu _ => a.queue.all fun e => match e with | .input k => !decidesB k | _ => true
    | .view _ => a.term.connection.state.menu.isNone
    | .echo _ => a.term.connection.state.menu.isNone
    | _ => true
  | _ => true

theorem inTurnB_ok {a : App T} {s : Tui.Step} (h : inTurnB o parse a s = true) : InTurn o parse a s := by
  cases s with
  | line l =>
    simp only [inTurnB] at h
    simp only [InTurn]
    cases hr : (Connection.receive o parse a.term.connection l).2 <;> rw [hr] at h
    case menu m =>
      intro k hk
      have := List.all_eq_true.1 h _ hk
      exact decidesB_ok (by simpa using this)
    case view x => exact Option.isNone_iff_eq_none.1 h
    case echo x => exact Option.isNone_iff_eq_none.1 h
    all_goals trivial
  | _ => trivial

def allInTurnB (o : Ornament T) (p : Paint T) (parse : Str → Option Json) (errText : Str → Str) : App T → List Tui.Step → Bool
  | _, [] => true
  | a, s :: ss => inTurnB o parse a s && match a.step o p parse errText s with
    | .ok (a', _) => allInTurnB o p parse errText a' ss
    | .error _ => true

theorem allInTurnB_ok {steps : List Tui.Step} {a : App T} (h : allInTurnB o p parse errText a steps = true) :
    AllInTurn o p parse errText a steps := by
  induction steps generalizing a with
  | nil => trivial
  | cons s ss ih =>
    simp only [allInTurnB, Bool.and_eq_true] at h
    refine ⟨inTurnB_ok h.1, fun a' ds hs => ih ?_⟩
    have := h.2
    rw [hs] at this
    exact this

/-- the lines of the example of C51: a view, a message, a menu -/
def linesM : List Str := readLines (exampleWires.flatMap fun w => frame (w.encode fragmentTexts))

/-- the file is shown; the menu comes while the view is still to be drawn and an ordinary key waits; then `down` twice, and a change
of the size of the window -/
def stepsM : List Tui.Step :=
  (linesM.take 3).map .line ++ [.key ⟨.char 'j', false, false, false⟩] ++ ((linesM.drop 4).take 1).map .line ++
    [.key ⟨.down, false, false, false⟩, .key ⟨.down, false, false, false⟩, .size 20 6] ++ List.replicate 7 .treat

def startM : Term (List (Str × Face)) := ⟨Connection.new, false, 30, 6⟩

theorem runM : (match App.run fragmentTexts bare JsonText.parse (fun _ => []) ⟨startM, []⟩ stepsM with
    | .ok (a, ds) => a.queue.isEmpty && !a.term.exitPending && decide (a.term.connection.state.menu.map (·.selected) = some 1) &&
        decide (ds.getLast? = some .clearRest)
    | .error _ => false) = true ∧
    allInTurnB fragmentTexts bare JsonText.parse (fun _ => []) (⟨startM, []⟩ : App (List (Str × Face))) stepsM = true := by
  decide +kernel

/-- C103_agrees (and C103_enter, C103_escape) apply: the menu is open, its second entry highlighted, and it is on the screen. -/
example : ∃ a ds m, App.run fragmentTexts bare JsonText.parse (fun _ => []) ⟨startM, []⟩ stepsM = .ok (a, ds) ∧ a.queue = [] ∧
    a.term.exitPending = false ∧ a.term.connection.state.menu = some m ∧ m.selected = 1 ∧
    ∃ picture, drawMenu bare a.term.width a.term.height m = .ok picture ∧ OnScreen picture ds := by
  obtain ⟨h1, h2⟩ := runM
  split at h1
  · next a ds hr =>
    simp only [Bool.and_eq_true, decide_eq_true_eq, Bool.not_eq_true', List.isEmpty_iff] at h1
    obtain ⟨⟨⟨h3, h4⟩, h5⟩, _⟩ := h1
    obtain ⟨m, hm, h6⟩ := Option.map_eq_some_iff.1 h5
    refine ⟨a, ds, m, hr, h3, h4, hm, h6, ?_⟩
    exact (agrees_some hm).1 (C103_agrees (files := []) (t := startM) rfl (allInTurnB_ok h2) hr h3)
  · cases h1

/-- the menu of the example, sent again -/
def lineM : Str := ((Wire.note (.menu str!"open" str!"file" [] [⟨str!"a", [(str!"a", .match_)], none⟩,
  ⟨str!"b", [(str!"b", .default)], some str!"x"⟩])).encode fragmentTexts).write

/-- The refutations apply: what is done there, on the terminal of `exampleOpen`, does not crash. -/
example : (exampleOpen []).toOption.map (fun a => (a.1.term.connection.state.menu.isSome, a.1.queue.length, a.1.term.exitPending)) =
      some (true, 0, false) ∧
    (exampleOpen [.key ⟨.esc, false, false, false⟩, .line lineM, .treat, .treat]).toOption.map
      (fun a => (a.1.term.connection.state.menu.isSome, a.2.getLast?)) = some (false, some .clearRest) ∧
    (exampleOpen [.key ⟨.down, false, false, false⟩, .line lineM, .treat, .treat]).toOption.map
      (fun a => (a.1.term.connection.state.menu.map (·.selected), a.2.drop (a.2.length - 4))) =
      some (some 1, [.at 0 1 true str!"a", .clearRest, .at 0 2 false str!"b", .clearRest]) ∧
    (exampleOpen (((linesM.drop 1).take 1).map .line ++ [.treat])).toOption.map
      (fun a => a.1.term.connection.state.menu.isSome) = some true ∧
    (exampleOpen [.key ⟨.char 'x', false, false, false⟩, .treat, .key ⟨.esc, false, false, false⟩, .treat,
      .line ((Wire.note (.menu str!"open" str!"file" str!"x" [])).encode fragmentTexts).write, .treat]).toOption.map
      (fun a => a.1.term.connection.state.menu.map (·.search)) = some (some str!"x") := by
  decide +kernel

end Ced.Props

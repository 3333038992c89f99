import Verif.Model.TuiEnd
import Verif.Props.TuiAsks

/-! # C91: how the terminal ends, and what it has written by then -/

namespace Ced.Props
open Spec Tui

variable {T : Type} {o : Ornament T} {p : Paint T} {parse : Str → Option Json} {errText : Str → Str}

/-- The steps of the keyboard, of the lines of the server and of the main loop. -/
def tasksIn (steps : List RunStep) : List Tui.Step := steps.filterMap fun s => match s with | .task s => some s | _ => none

/-- A step of the running program, seen from the terminal. -/
theorem running_step {r r' : Running T} {ds : List Draw} {s : RunStep} (h : r.step o p parse errText s = .ok (r', ds)) :
    (r'.app = r.app ∧ ds = [] ∨ ∃ t, s = .task t ∧ r.app.step o p parse errText t = .ok (r'.app, ds)) ∧
    (r'.closed = true ↔ r.closed = true ∨ s = .lost ∧ r.ended = false) ∧
    (r.ended = true → r' = r ∧ ds = []) ∧
    (r.ended = false → (r'.ended = true ↔ s = .task .treat ∧
      (r.app.queue = [] ∧ r.closed = true ∨ r.app.queue ≠ [] ∧ r'.app.term.exitPending = true))) ∧
    (r'.closed = false → ∀ t, s = .task t → r.ended = false → r.app.step o p parse errText t = .ok (r'.app, ds) ∨
      (t = .treat ∧ r.app.queue = [] ∧ r'.app = r.app ∧ ds = [])) := by
  unfold Running.step at h
  split at h
  · rename_i he
    cases h
    exact ⟨.inl ⟨rfl, rfl⟩, ⟨fun h => .inl h, fun h => h.elim id fun h => absurd h.2 (by simp [he])⟩, fun _ => ⟨rfl, rfl⟩,
      fun h => absurd he (by simp [h]), fun _ _ _ h => absurd he (by simp [h])⟩
  · rename_i he
    have he : r.ended = false := by simpa using he
    split at h
    · split at h
      · rename_i hq
        cases h
        refine ⟨.inl ⟨rfl, rfl⟩, ⟨.inl, fun h => h.elim id fun h => (by cases h.1)⟩, fun h => absurd h (by simp [he]), fun _ => ?_, ?_⟩
        · exact ⟨fun h => ⟨rfl, .inl ⟨hq, h⟩⟩, fun h => h.2.elim (fun h => h.2) fun h => absurd hq h.1⟩
        · intro _ t ht _; cases ht; exact .inr ⟨rfl, hq, rfl, rfl⟩
      · rename_i e q hq
        obtain ⟨⟨a, d⟩, h1, h⟩ := bind_inv h
        cases h
        refine ⟨.inr ⟨_, rfl, h1⟩, ⟨.inl, fun h => h.elim id fun h => (by cases h.1)⟩, fun h => absurd h (by simp [he]), fun _ => ?_, ?_⟩
        · exact ⟨fun h => ⟨rfl, .inr ⟨by simp [hq], h⟩⟩, fun h => h.2.elim (fun h => absurd h.1 (by simp [hq])) fun h => h.2⟩
        · intro _ t ht _; cases ht; exact .inl h1
    · rename_i l
      split at h
      · rename_i hc
        cases h
        refine ⟨.inl ⟨rfl, rfl⟩, ⟨.inl, fun h => h.elim id fun h => (by cases h.1)⟩, fun h => absurd h (by simp [he]), fun _ => ?_, ?_⟩
        · exact ⟨fun h => absurd h (by simp [he]), fun h => (by cases h.1)⟩
        · intro h; simp [hc] at h
      · obtain ⟨⟨a, d⟩, h1, h⟩ := bind_inv h
        cases h
        refine ⟨.inr ⟨_, rfl, h1⟩, ⟨.inl, fun h => h.elim id fun h => (by cases h.1)⟩, fun h => absurd h (by simp [he]), fun _ => ?_, ?_⟩
        · exact ⟨fun h => absurd h (by simp [he]), fun h => (by cases h.1)⟩
        · intro _ t ht _; cases ht; exact .inl h1
    · rename_i t n1 n2
      split at h
      · cases h
      · obtain ⟨⟨a, d⟩, h1, h⟩ := bind_inv h
        cases h
        refine ⟨.inr ⟨_, rfl, h1⟩, ⟨.inl, fun h => h.elim id fun h => (by cases h.1)⟩, fun h => absurd h (by simp [he]), fun _ => ?_, ?_⟩
        · refine ⟨fun h => absurd h (by simp [he]), fun h => ?_⟩
          have h := h.1
          injection h with h
          exact (n1 h).elim
        · intro _ t' ht _; cases ht; exact .inl h1
    · cases h
      refine ⟨.inl ⟨rfl, rfl⟩, ⟨fun _ => .inr ⟨rfl, he⟩, fun _ => rfl⟩, fun h => absurd h (by simp [he]), fun _ => ?_, ?_⟩
      · exact ⟨fun h => absurd h (by simp [he]), fun h => (by cases h.1)⟩
      · intro h; cases h
    · split at h
      · cases h
        refine ⟨.inl ⟨rfl, rfl⟩, ⟨.inl, fun h => h.elim id fun h => (by cases h.1)⟩, fun h => absurd h (by simp [he]), fun _ => ?_, ?_⟩
        · exact ⟨fun h => absurd h (by simp [he]), fun h => (by cases h.1)⟩
        · intro _ t ht; cases ht
      · cases h
    · split at h
      · cases h
        refine ⟨.inl ⟨rfl, rfl⟩, ⟨.inl, fun h => h.elim id fun h => (by cases h.1)⟩, fun h => absurd h (by simp [he]), fun _ => ?_, ?_⟩
        · exact ⟨fun h => absurd h (by simp [he]), fun h => (by cases h.1)⟩
        · intro _ t ht; cases ht
      · cases h
        refine ⟨.inl ⟨rfl, rfl⟩, ⟨.inl, fun h => h.elim id fun h => (by cases h.1)⟩, fun h => absurd h (by simp [he]), fun _ => ?_, ?_⟩
        · exact ⟨fun h => absurd h (by simp [he]), fun h => (by cases h.1)⟩
        · intro _ t ht; cases ht

theorem running_cons {s : RunStep} {ss : List RunStep} {r r' : Running T} {ds : List Draw}
    (h : r.run o p parse errText (s :: ss) = .ok (r', ds)) : ∃ r1 d1 d2, r.step o p parse errText s = .ok (r1, d1) ∧
      r1.run o p parse errText ss = .ok (r', d2) ∧ ds = d1 ++ d2 := by
  obtain ⟨⟨r1, d1⟩, h1, h⟩ := bind_inv h
  obtain ⟨⟨r2, d2⟩, h2, h⟩ := bind_inv h
  cases h
  exact ⟨r1, d1, d2, h1, h2, rfl⟩

theorem running_append {s1 s2 : List RunStep} {r r' : Running T} {ds : List Draw}
    (h : r.run o p parse errText (s1 ++ s2) = .ok (r', ds)) : ∃ r1 d1 d2, r.run o p parse errText s1 = .ok (r1, d1) ∧
      r1.run o p parse errText s2 = .ok (r', d2) ∧ ds = d1 ++ d2 := by
  induction s1 generalizing r ds with
  | nil => exact ⟨r, [], ds, rfl, h, rfl⟩
  | cons s ss ih =>
    obtain ⟨r1, d1, d2, h1, h2, rfl⟩ := running_cons h
    obtain ⟨r2, e1, e2, h3, h4, rfl⟩ := ih h2
    refine ⟨r2, d1 ++ e1, e2, ?_, h4, by rw [List.append_assoc]⟩
    show (do let (r, ds) ← r.step o p parse errText s; let (r, ds') ← Running.run o p parse errText r ss; return (r, ds ++ ds')) = _
    rw [h1]
    show (do let (r, ds') ← Running.run o p parse errText r1 ss; return (r, d1 ++ ds')) = _
    rw [h3]; rfl

/-- C91: once the main loop is left nothing is drawn, asked or written any more. -/
theorem C91_after {r r' : Running T} {ds : List Draw} {steps : List RunStep} (he : r.ended = true)
    (h : r.run o p parse errText steps = .ok (r', ds)) : r' = r ∧ ds = [] := by
  induction steps generalizing r ds with
  | nil => cases h; exact ⟨rfl, rfl⟩
  | cons s ss ih =>
    obtain ⟨r1, d1, d2, h1, h2, rfl⟩ := running_cons h
    obtain ⟨_, _, h3, _, _⟩ := running_step h1
    obtain ⟨rfl, rfl⟩ := h3 he
    obtain ⟨rfl, rfl⟩ := ih he h2
    exact ⟨rfl, rfl⟩

/-- C91: closing is for ever. -/
theorem running_closed {r r' : Running T} {ds : List Draw} {steps : List RunStep}
    (h : r.run o p parse errText steps = .ok (r', ds)) (hc : r.closed = true) : r'.closed = true := by
  induction steps generalizing r ds with
  | nil => cases h; exact hc
  | cons s ss ih =>
    obtain ⟨r1, d1, d2, h1, h2, rfl⟩ := running_cons h
    obtain ⟨_, h3, _⟩ := running_step h1
    exact ih h2 (h3.2 (.inl hc))

theorem tasksIn_cons (s : RunStep) (ss : List RunStep) : tasksIn (s :: ss) = tasksIn [s] ++ tasksIn ss := by
  cases s <;> rfl

theorem app_run_cons {t : Tui.Step} {ts : List Tui.Step} {a a1 a2 : App T} {d1 d2 : List Draw}
    (h1 : a.step o p parse errText t = .ok (a1, d1)) (h2 : a1.run o p parse errText ts = .ok (a2, d2)) :
    a.run o p parse errText (t :: ts) = .ok (a2, d1 ++ d2) := by
  show (do let (a, ds) ← a.step o p parse errText t; let (a, ds') ← App.run o p parse errText a ts; return (a, ds ++ ds')) = _
  rw [h1]
  show (do let (a, ds') ← App.run o p parse errText a1 ts; return (a, d1 ++ ds')) = _
  rw [h2]; rfl

/-- C91: the whole program does what its three tasks do (C60, C72 to C76): what it draws, shows and asks for is what they
do on the steps that they took part in, in the same order; these are all the steps as long as the connection is not lost and the
main loop is not left. -/
theorem C91_tasks {r r' : Running T} {ds : List Draw} {steps : List RunStep}
    (h : r.run o p parse errText steps = .ok (r', ds)) :
    ∃ ts, ts.Sublist (tasksIn steps) ∧ r.app.run o p parse errText ts = .ok (r'.app, ds) ∧
      (r'.closed = false → r'.ended = false → ts = tasksIn steps) := by
  induction steps generalizing r ds with
  | nil => cases h; exact ⟨[], List.Sublist.refl _, rfl, fun _ _ => rfl⟩
  | cons s ss ih =>
    obtain ⟨r1, d1, d2, h1, h2, rfl⟩ := running_cons h
    obtain ⟨ts, i1, i2, i3⟩ := ih h2
    obtain ⟨h3, h4, h5, _, h7⟩ := running_step h1
    have skip : r1.app = r.app → d1 = [] → (r'.closed = false → r'.ended = false → tasksIn [s] = []) →
        ∃ ts, ts.Sublist (tasksIn (s :: ss)) ∧ r.app.run o p parse errText ts = .ok (r'.app, d1 ++ d2) ∧
          (r'.closed = false → r'.ended = false → ts = tasksIn (s :: ss)) := by
      intro e1 e2 e3
      subst e2
      refine ⟨ts, ?_, ?_, fun c e => ?_⟩
      · rw [tasksIn_cons]; exact i1.trans (List.sublist_append_right _ _)
      · rw [← e1]; exact i2
      · rw [tasksIn_cons, e3 c e, i3 c e]; rfl
    have keep : ∀ t, s = .task t → r.app.step o p parse errText t = .ok (r1.app, d1) →
        ∃ ts, ts.Sublist (tasksIn (s :: ss)) ∧ r.app.run o p parse errText ts = .ok (r'.app, d1 ++ d2) ∧
          (r'.closed = false → r'.ended = false → ts = tasksIn (s :: ss)) := by
      intro t e1 e2
      subst e1
      refine ⟨t :: ts, ?_, app_run_cons e2 i2, fun c e => ?_⟩
      · rw [tasksIn_cons]; exact List.Sublist.cons₂ _ i1
      · rw [tasksIn_cons, ← i3 c e]; rfl
    rcases h3 with ⟨e1, e2⟩ | ⟨t, e1, e2⟩
    · cases s with
      | task t =>
        by_cases hx : r'.closed = false ∧ r'.ended = false
        · have c1 : r1.closed = false := by
            cases hc : r1.closed with
            | false => rfl
            | true => rw [running_closed h2 hc] at hx; exact absurd hx.1 (by simp)
          have c2 : r.ended = false := by
            cases hc : r.ended with
            | false => rfl
            | true =>
              obtain ⟨rfl, _⟩ := h5 hc
              obtain ⟨rfl, _⟩ := C91_after hc h2
              exact absurd hx.2 (by simp [hc])
          rcases h7 c1 t rfl c2 with e3 | ⟨rfl, e4, e5, e6⟩
          · exact keep t rfl e3
          · refine keep .treat rfl ?_
            simp only [App.step]
            rw [e4, e5, e6]
            split <;> rfl
        · exact skip e1 e2 fun a b => absurd ⟨a, b⟩ hx
      | lost => exact skip e1 e2 fun _ _ => rfl
      | broken => exact skip e1 e2 fun _ _ => rfl
      | write ok => exact skip e1 e2 fun _ _ => rfl
    · exact keep t e1 e2

/-- The keys that wait were pressed, and the loop is told to stop only by the leaving key. -/
structure Told (a : App T) (pressed : List KeyEvent) : Prop where
  waits : ∀ k, .input k ∈ a.queue → ∀ ev, k.event = some ev → ev ∈ pressed
  told : a.term.exitPending = true → ∃ k ∈ pressed, LeavingKey k

theorem view_exit {t t' : Term T} {c : Connection T} {ds : List Draw} (h : t.view p c = .ok (t', ds)) :
    t'.exitPending = t.exitPending := by
  obtain ⟨d, _, h⟩ := bind_inv h
  cases h; rfl

theorem menu_exit {t t' : Term T} {c : Connection T} {ds : List Draw} (h : t.menu p c = .ok (t', ds)) :
    t'.exitPending = t.exitPending := by
  obtain ⟨m, _, h⟩ := bind_inv h
  obtain ⟨d, _, h⟩ := bind_inv h
  cases h; rfl

theorem treat_exit {t t' : Term T} {e : Event T} {ds : List Draw} (h : t.treat p e = .ok (t', ds)) :
    t'.exitPending = t.exitPending ∨ ∃ k ev, e = .input k ∧ k.event = some ev ∧ LeavingKey ev := by
  cases e with
  | drawMenu m =>
    obtain ⟨d, h1, h⟩ := bind_inv h
    cases h; exact .inl rfl
  | drawView =>
    obtain ⟨d, h1, h⟩ := bind_inv h
    cases h; exact .inl rfl
  | drawHint m =>
    obtain ⟨d, h1, h⟩ := bind_inv h
    cases h; exact .inl rfl
  | drawStatus =>
    obtain ⟨d, h1, h⟩ := bind_inv h
    cases h; exact .inl rfl
  | error msg =>
    obtain ⟨c1, h1, rfl, _⟩ := term_call h
    exact .inl rfl
  | input k =>
    have h : t.handleInput p k = .ok (t', ds) := h
    unfold Term.handleInput at h
    split at h
    · cases h; exact .inl rfl
    · rename_i ev hev
      split at h
      · refine .inl ?_
        rename_i m hm
        unfold Term.menuKey at h
        repeat' split at h
        all_goals first
          | exact view_exit h
          | exact menu_exit h
          | (obtain ⟨c1, h1, rfl, _⟩ := term_call h; rfl)
          | (cases h; rfl)
          | (obtain ⟨d, h1, h⟩ := bind_inv h; exact view_exit h)
          | (obtain ⟨d, h1, h⟩ := bind_inv h; exact menu_exit h)
      · unfold Term.plainKey at h
        by_cases hl : LeavingKey ev
        · exact .inr ⟨k, ev, rfl, hev, hl⟩
        · refine .inl ?_
          repeat' split at h
          all_goals first
            | (cases h; done)
            | (obtain ⟨c1, h1, rfl, _⟩ := term_call h; rfl)
            | (rename_i hx; exact absurd hx hl)
            | (cases h; rfl)
  | resize w hh =>
    have h : t.resize p w hh = .ok (t', ds) := h
    unfold Term.resize at h
    split at h
    · dsimp only at h
      split at h <;>
      · obtain ⟨d, h1, h⟩ := bind_inv h
        injection h with h
        injection h with h h'
        subst h
        exact .inl rfl
    · cases h; exact .inl rfl

theorem told_step {a a' : App T} {ds : List Draw} {t : Tui.Step} {pressed : List KeyEvent} (h : Told a pressed)
    (hs : a.step o p parse errText t = .ok (a', ds)) : Told a' (pressed ++ pressedIn [t]) := by
  have more : ∀ {q : List (Event T)}, (∀ k, .input k ∈ q → ∀ ev, k.event = some ev → ev ∈ pressed ++ pressedIn [t]) →
      ∀ k, .input k ∈ a.queue ++ q → ∀ ev, k.event = some ev → ev ∈ pressed ++ pressedIn [t] := by
    intro q hq k hm ev he
    rcases List.mem_append.1 hm with hm | hm
    · exact List.mem_append_left _ (h.waits k hm ev he)
    · exact hq k hm ev he
  have told : a.term.exitPending = true → ∃ k ∈ pressed ++ pressedIn [t], LeavingKey k := fun he => by
    obtain ⟨k, h1, h2⟩ := h.told he
    exact ⟨k, List.mem_append_left _ h1, h2⟩
  cases t with
  | line l =>
    simp only [App.step, Except.ok.injEq, Prod.mk.injEq] at hs
    obtain ⟨rfl, _⟩ := hs
    refine ⟨more fun k hm => ?_, told⟩
    exfalso
    rw [Option.mem_toList] at hm
    revert hm
    cases (a.term.connection.receive o parse l).2 <;> intro hm <;> cases hm
  | key k =>
    simp only [App.step, Except.ok.injEq, Prod.mk.injEq] at hs
    obtain ⟨rfl, _⟩ := hs
    refine ⟨more fun k' hm ev he => ?_, told⟩
    rw [List.mem_singleton] at hm
    cases hm
    exact List.mem_append_right _ (by simp [pressedIn, he])
  | size w hh =>
    simp only [App.step, Except.ok.injEq, Prod.mk.injEq] at hs
    obtain ⟨rfl, _⟩ := hs
    refine ⟨more fun k' hm ev he => ?_, told⟩
    rw [List.mem_singleton] at hm
    cases hm
  | fault text =>
    simp only [App.step, Except.ok.injEq, Prod.mk.injEq] at hs
    obtain ⟨rfl, _⟩ := hs
    refine ⟨more fun k' hm ev he => ?_, told⟩
    rw [List.mem_singleton] at hm
    cases hm
  | treat =>
    have hp : pressed ++ pressedIn [Step.treat] = pressed := List.append_nil _
    rw [hp]
    simp only [App.step] at hs
    rcases ite_inv hs with ⟨_, hs⟩ | ⟨_, hs⟩
    · cases hs; exact h
    · cases hq : a.queue with
      | nil =>
        simp only [hq] at hs
        cases hs
        exact h
      | cons e q =>
        simp only [hq] at hs
        obtain ⟨⟨t, d⟩, ht, hs⟩ := bind_inv hs
        cases hs
        refine ⟨fun k hm => h.waits k (by rw [hq]; exact List.mem_cons_of_mem _ hm), fun he => ?_⟩
        rcases treat_exit ht with e1 | ⟨k, ev, rfl, e2, e3⟩
        · exact h.told (e1 ▸ he)
        · exact ⟨ev, h.waits k (by rw [hq]; exact List.mem_cons_self) ev e2, e3⟩

theorem told_run {ts : List Tui.Step} {a a' : App T} {ds : List Draw} {pressed : List KeyEvent} (h : Told a pressed)
    (hs : a.run o p parse errText ts = .ok (a', ds)) : Told a' (pressed ++ pressedIn ts) := by
  induction ts generalizing a ds pressed with
  | nil => cases hs; simpa [pressedIn] using h
  | cons t ts ih =>
    obtain ⟨a1, d1, d2, h1, h2⟩ := run_cons hs
    rw [pressedIn_cons, ← List.append_assoc]
    exact ih (told_step h h1) h2

theorem new_exit {w h : Nat} {files : List Str} {t : Term T} (ht : Term.new w h files = .ok t) : t.exitPending = false := by
  obtain ⟨c, _, ht⟩ := bind_inv ht
  cases ht; rfl

theorem sublist_pressed {ts us : List Tui.Step} (h : ts.Sublist us) {k : KeyEvent} (hk : k ∈ pressedIn ts) : k ∈ pressedIn us := by
  unfold pressedIn at *
  obtain ⟨x, h1, h2⟩ := List.mem_flatMap.1 hk
  exact List.mem_flatMap.2 ⟨x, h.subset h1, h2⟩

theorem lost_of_closed {r r' : Running T} {ds : List Draw} {steps : List RunStep}
    (h : r.run o p parse errText steps = .ok (r', ds)) (hc : r'.closed = true) : r.closed = true ∨ .lost ∈ steps := by
  induction steps generalizing r ds with
  | nil => cases h; exact .inl hc
  | cons s ss ih =>
    obtain ⟨r1, d1, d2, h1, h2, rfl⟩ := running_cons h
    rcases ih h2 with h3 | h3
    · rcases (running_step h1).2.1.1 h3 with h4 | ⟨rfl, _⟩
      · exact .inl h4
      · exact .inr List.mem_cons_self
    · exact .inr (List.mem_cons_of_mem _ h3)

theorem ended_why {r r' : Running T} {ds : List Draw} {steps : List RunStep}
    (h : r.run o p parse errText steps = .ok (r', ds)) (he : r.ended = false) (he' : r'.ended = true) :
    r'.app.term.exitPending = true ∨ (r'.closed = true ∧ r'.app.queue = []) := by
  induction steps generalizing r ds with
  | nil => cases h; exact absurd he' (by simp [he])
  | cons s ss ih =>
    obtain ⟨r1, d1, d2, h1, h2, rfl⟩ := running_cons h
    cases h3 : r1.ended with
    | false => exact ih h2 h3
    | true =>
      obtain ⟨rfl, _⟩ := C91_after h3 h2
      obtain ⟨i1, i2, _, i4, _⟩ := running_step h1
      obtain ⟨rfl, ⟨j1, j2⟩ | ⟨_, j2⟩⟩ := (i4 he).1 h3
      · refine .inr ⟨i2.2 (.inl j2), ?_⟩
        rcases i1 with ⟨k1, _⟩ | ⟨t, k1, k2⟩
        · rw [k1, j1]
        · cases k1
          simp only [App.step, j1] at k2
          rcases ite_inv k2 with ⟨_, k2⟩ | ⟨_, k2⟩ <;>
          · injection k2 with k2
            injection k2 with k2 k3
            rw [← k2, j1]
      · exact .inl j2

/-- C91: the terminal ends only when its user pressed the leaving key, or when the connection was lost and all that came
before was treated. -/
theorem C91_only {w h : Nat} {files : List Str} {t : Term T} (ht : Term.new w h files = .ok t) {steps : List RunStep}
    {r : Running T} {ds : List Draw} (hr : (Running.start t).run o p parse errText steps = .ok (r, ds)) (he : r.ended = true) :
    (∃ k ∈ pressedIn (tasksIn steps), LeavingKey k) ∨ (.lost ∈ steps ∧ r.app.queue = []) := by
  rcases ended_why hr rfl he with h1 | ⟨h1, h2⟩
  · refine .inl ?_
    obtain ⟨ts, i1, i2, _⟩ := C91_tasks hr
    have start : Told (Running.start t).app [] := ⟨fun k hk => (by cases hk), fun hx => absurd hx (by rw [show (Running.start t).app.term.exitPending = t.exitPending from rfl, new_exit ht]; simp)⟩
    obtain ⟨k, j1, j2⟩ := (told_run start i2).told h1
    exact ⟨k, sublist_pressed i1 j1, j2⟩
  · refine .inr ⟨?_, h2⟩
    rcases lost_of_closed hr h1 with h3 | h3
    · cases h3
    · exact h3

/-- C91: the leaving key, when its turn comes and no menu is open, does end it. -/
theorem C91_leaves {r : Running T} {k : Pressed} {ev : KeyEvent} {q : List (Event T)} (he : r.ended = false)
    (hx : r.app.term.exitPending = false) (hq : r.app.queue = .input k :: q) (hk : k.event = some ev) (hl : LeavingKey ev)
    (hm : r.app.term.connection.state.menu = none) :
    ∃ r', r.step o p parse errText (.task .treat) = .ok (r', []) ∧ r'.ended = true ∧ r'.written = r.written ∧
      r'.app.term.connection = r.app.term.connection := by
  have h1 : r.app.term.treat p (.input k) = .ok ({ r.app.term with exitPending := true }, []) := by
    show r.app.term.handleInput p k = _
    unfold Term.handleInput
    rw [hk]
    simp only [hm]
    unfold Term.plainKey
    rw [if_pos ⟨hl.1, hl.2⟩]
  have h2 : r.app.step o p parse errText .treat = .ok (⟨{ r.app.term with exitPending := true }, q⟩, []) := by
    simp only [App.step]
    rw [if_neg (by simp [hx]), hq]
    simp only [h1]; rfl
  refine ⟨{ r with app := ⟨{ r.app.term with exitPending := true }, q⟩, ended := true }, ?_, rfl, rfl, rfl⟩
  simp only [Running.step, he, hq, h2]
  rfl

theorem treat_queue {a a' : App T} {ds : List Draw} (h : a.step o p parse errText .treat = .ok (a', ds))
    (hx : a.term.exitPending = false) : a'.queue = a.queue.tail := by
  simp only [App.step] at h
  rw [if_neg (by simp [hx])] at h
  cases hq : a.queue with
  | nil => simp only [hq] at h; cases h; exact hq
  | cons e q =>
    simp only [hq] at h
    obtain ⟨⟨t, d⟩, ht, h⟩ := bind_inv h
    cases h; rfl

/-- C91: once the connection is lost, the main loop treats what waits and ends by itself, unless a drawing crashes. -/
theorem C91_lost {r r' : Running T} {ds : List Draw} (hc : r.closed = true) (hx : r.app.term.exitPending = false)
    (h : r.run o p parse errText (List.replicate (r.app.queue.length + 1) (.task .treat)) = .ok (r', ds)) : r'.ended = true := by
  generalize hn : r.app.queue.length = n at h
  induction n generalizing r ds with
  | zero =>
    obtain ⟨r1, d1, d2, h1, h2, rfl⟩ := running_cons h
    cases h2
    cases he : r.ended with
    | true => rw [((running_step h1).2.2.1 he).1, he]
    | false => exact ((running_step h1).2.2.2.1 he).2 ⟨rfl, .inl ⟨List.length_eq_zero_iff.1 hn, hc⟩⟩
  | succ n ih =>
    obtain ⟨r1, d1, d2, h1, h2, rfl⟩ := running_cons h
    obtain ⟨i1, i2, i3, i4, _⟩ := running_step h1
    cases he : r.ended with
    | true =>
      obtain ⟨rfl, _⟩ := i3 he
      rw [(C91_after he h2).1, he]
    | false =>
      cases he1 : r1.ended with
      | true => rw [(C91_after he1 h2).1, he1]
      | false =>
        have hq : r.app.queue ≠ [] := by intro h0; rw [h0] at hn; cases hn
        have hx1 : r1.app.term.exitPending = false := by
          cases hy : r1.app.term.exitPending with
          | false => rfl
          | true => exact absurd ((i4 he).2 ⟨rfl, .inr ⟨hq, hy⟩⟩) (by simp [he1])
        refine ih (i2.2 (.inl hc)) hx1 ?_ h2
        have hstep : r.app.step o p parse errText .treat = .ok (r1.app, d1) := by
          unfold Running.step at h1
          rw [if_neg (by simp [he])] at h1
          simp only at h1
          split at h1
          · rename_i h0; exact absurd h0 hq
          · obtain ⟨⟨a, d⟩, h3, h1⟩ := bind_inv h1
            cases h1; exact h3
        rw [treat_queue hstep hx, List.length_tail, hn]; rfl

/-- C91 (what fails): from the loss of the connection to the end of the main loop, a key that is pressed, a window that
changes its size and an error of the terminal are a crash. -/
theorem C91_crash_refuted {r : Running T} (he : r.ended = false) (hc : r.closed = true) :
    (∀ k, r.step o p parse errText (.task (.key k)) = .error .unwrap) ∧
    (∀ w h, r.step o p parse errText (.task (.size w h)) = .error .unwrap) ∧
    (∀ text, r.step o p parse errText (.task (.fault text)) = .error .unwrap) := by
  refine ⟨fun k => ?_, fun w h => ?_, fun text => ?_⟩ <;>
  · simp only [Running.step, he, hc]; rfl

/-- C91 (what fails): a line of the server that is not text is a crash. -/
theorem C91_broken_refuted {r : Running T} (he : r.ended = false) (hc : r.closed = false) :
    r.step o p parse errText .broken = .error .unwrap := by
  simp only [Running.step, he, hc]; rfl

theorem conn_sent {xs : List Connection.Step} {c c' : Connection T} (h : c.run o parse xs = .ok c') : ∃ more, c'.sent = c.sent ++ more := by
  induction xs generalizing c with
  | nil => cases h; exact ⟨[], (List.append_nil _).symm⟩
  | cons x xs ih =>
    have h : (do let c1 ← c.step o parse x; c1.run o parse xs) = .ok c' := by
      unfold Connection.run at h ⊢
      rw [List.foldlM_cons] at h; exact h
    obtain ⟨c1, h1, h2⟩ := bind_inv h
    obtain ⟨m2, e2⟩ := ih h2
    rcases step_sent h1 with ⟨e1, _⟩ | ⟨call, e1, _⟩
    · exact ⟨m2, by rw [e2, e1]⟩
    · exact ⟨_, by rw [e2, e1, List.append_assoc]⟩

theorem step_writes {r r' : Running T} {ds : List Draw} {s : RunStep} (h : r.step o p parse errText s = .ok (r', ds)) :
    (∃ more, r'.app.term.connection.sent = r.app.term.connection.sent ++ more) ∧
    ((r'.taken = r.taken ∧ r'.written = r.written) ∨
     (∃ q ok, s = .write ok ∧ r.app.term.connection.sent[r.taken]? = some q ∧ r'.app = r.app ∧ r'.taken = r.taken + 1 ∧
       r'.written = if ok then r.written ++ [q] else r.written)) := by
  constructor
  · rcases (running_step h).1 with ⟨e, _⟩ | ⟨t, _, e⟩
    · exact ⟨[], by rw [e, List.append_nil]⟩
    · have e : r.app.run o p parse errText [t] = .ok (r'.app, ds ++ []) := app_run_cons e rfl
      obtain ⟨xs, _, h2⟩ := app_connection e
      exact conn_sent h2
  · unfold Running.step at h
    split at h
    · cases h; exact .inl ⟨rfl, rfl⟩
    · split at h
      · split at h
        · cases h; exact .inl ⟨rfl, rfl⟩
        · obtain ⟨⟨a, d⟩, _, h⟩ := bind_inv h
          cases h; exact .inl ⟨rfl, rfl⟩
      · split at h
        · cases h; exact .inl ⟨rfl, rfl⟩
        · obtain ⟨⟨a, d⟩, _, h⟩ := bind_inv h
          cases h; exact .inl ⟨rfl, rfl⟩
      · split at h
        · cases h
        · obtain ⟨⟨a, d⟩, _, h⟩ := bind_inv h
          cases h; exact .inl ⟨rfl, rfl⟩
      · cases h; exact .inl ⟨rfl, rfl⟩
      · split at h
        · cases h; exact .inl ⟨rfl, rfl⟩
        · cases h
      · rename_i ok
        split at h
        · cases h; exact .inl ⟨rfl, rfl⟩
        · rename_i q hq
          cases h; exact .inr ⟨q, ok, rfl, hq, rfl, rfl, rfl⟩

/-- What has been written, of what was asked. -/
structure Writes (r : Running T) : Prop where
  enough : r.taken ≤ r.app.term.connection.sent.length
  some : r.written.Sublist (r.app.term.connection.sent.take r.taken)

theorem writes_step {r r' : Running T} {ds : List Draw} {s : RunStep} (hw : Writes r) (h : r.step o p parse errText s = .ok (r', ds)) :
    Writes r' ∧ (r.written = r.app.term.connection.sent.take r.taken → s ≠ .write false →
      r'.written = r'.app.term.connection.sent.take r'.taken) := by
  obtain ⟨⟨more, e⟩, ⟨h1, h2⟩ | ⟨q, ok, rfl, h1, h2, h3, h4⟩⟩ := step_writes h
  · have e' : r'.app.term.connection.sent.take r'.taken = r.app.term.connection.sent.take r.taken := by
      rw [e, h1, List.take_append_of_le_length hw.enough]
    exact ⟨⟨by rw [e, h1, List.length_append]; have := hw.enough; omega, by rw [e', h2]; exact hw.some⟩, fun h _ => by rw [e', h2, h]⟩
  · obtain ⟨hlt, hq⟩ := List.getElem?_eq_some_iff.1 h1
    have e' : r'.app.term.connection.sent.take r'.taken = r.app.term.connection.sent.take r.taken ++ [q] := by
      rw [h2, h3, List.take_succ_eq_append_getElem hlt, hq]
    refine ⟨⟨by rw [h2, h3]; omega, ?_⟩, fun hp hne => ?_⟩
    · rw [e', h4]
      split
      · exact hw.some.append (List.Sublist.refl _)
      · exact hw.some.trans (List.sublist_append_left _ _)
    · cases ok with
      | false => exact absurd rfl hne
      | true => rw [e', h4, ← hp]; rfl

theorem writes_run {steps : List RunStep} (r0 : Running T) {r : Running T} {ds : List Draw} (hw : Writes r0)
    (h : r0.run o p parse errText steps = .ok (r, ds)) :
    Writes r ∧ (r0.written = r0.app.term.connection.sent.take r0.taken → .write false ∉ steps →
      r.written = r.app.term.connection.sent.take r.taken) := by
  induction steps generalizing r0 ds with
  | nil => cases h; exact ⟨hw, fun h _ => h⟩
  | cons s ss ih =>
    obtain ⟨r1, d1, d2, h1, h2, rfl⟩ := running_cons h
    obtain ⟨i1, i2⟩ := writes_step hw h1
    obtain ⟨j1, j2⟩ := ih r1 i1 h2
    exact ⟨j1, fun h hn => j2 (i2 h fun e => hn (e ▸ List.mem_cons_self)) fun hm => hn (List.mem_cons_of_mem _ hm)⟩

/-- C91: what reaches the connection is, in order and never twice, of what the terminal asked for (C73): all of it up to some
point as long as no write fails. -/
theorem C91_requests {t : Term T} {steps : List RunStep} {r : Running T} {ds : List Draw}
    (hr : (Running.start t).run o p parse errText steps = .ok (r, ds)) :
    r.written.Sublist r.app.term.connection.sent ∧
    (.write false ∉ steps → ∃ rest, r.app.term.connection.sent = r.written ++ rest) := by
  obtain ⟨h1, h2⟩ := writes_run (Running.start t) ⟨Nat.zero_le _, by simp [Running.start]⟩ hr
  refine ⟨h1.some.trans (List.take_sublist _ _), fun hn => ⟨r.app.term.connection.sent.drop r.taken, ?_⟩⟩
  rw [h2 (by simp [Running.start]) hn, List.take_append_drop]

/-- C91: as long as the main loop is not left, all that was asked is written once the writing task had its turns. -/
theorem C91_flush {t : Term T} {steps : List RunStep} {r : Running T} {ds : List Draw}
    (hr : (Running.start t).run o p parse errText steps = .ok (r, ds)) (hn : .write false ∉ steps) (he : r.ended = false) :
    ∃ r', r.run o p parse errText (List.replicate (r.app.term.connection.sent.length - r.written.length) (.write true)) = .ok (r', []) ∧
      r'.written = r.app.term.connection.sent ∧ r'.app = r.app := by
  have key : ∀ (n : Nat) (r : Running T), r.ended = false → r.written = r.app.term.connection.sent.take r.taken →
      r.taken + n = r.app.term.connection.sent.length →
      ∃ r', r.run o p parse errText (List.replicate n (.write true)) = .ok (r', []) ∧
        r'.written = r.app.term.connection.sent ∧ r'.app = r.app := by
    intro n
    induction n with
    | zero => intro r _ h1 h2; exact ⟨r, rfl, by rw [h1, List.take_of_length_le (by omega)], rfl⟩
    | succ n ih =>
      intro r h0 h1 h2
      have hlt : r.taken < r.app.term.connection.sent.length := by omega
      have hs : r.step o p parse errText (.write true) =
          .ok ({ r with taken := r.taken + 1, written := r.written ++ [r.app.term.connection.sent[r.taken]] }, []) := by
        simp only [Running.step, h0, List.getElem?_eq_getElem hlt]
        rfl
      obtain ⟨r', i1, i2, i3⟩ := ih { r with taken := r.taken + 1, written := r.written ++ [r.app.term.connection.sent[r.taken]] } h0
        (by show r.written ++ _ = _; rw [h1]; exact (List.take_succ_eq_append_getElem hlt).symm) (by show r.taken + 1 + n = r.app.term.connection.sent.length; omega)
      refine ⟨r', ?_, i2, i3⟩
      show (do let (r, ds) ← r.step o p parse errText (.write true); let (r, ds') ← Running.run o p parse errText r (List.replicate n (.write true)); return (r, ds ++ ds')) = _
      rw [hs]
      show (do let (r, ds') ← Running.run o p parse errText _ (List.replicate n (.write true)); return (r, [] ++ ds')) = _
      rw [i1]; rfl
  obtain ⟨h1, h2⟩ := writes_run (Running.start t) ⟨Nat.zero_le _, by simp [Running.start]⟩ hr
  have h3 := h2 (by simp [Running.start]) hn
  have h4 : r.written.length = r.taken := by
    rw [h3, List.length_take]; have := h1.enough; omega
  exact key _ r he h3 (by rw [h4]; have := h1.enough; omega)

/-- C91 (what fails): the leaving key does not wait for the requests that are not written yet: they are lost. -/
theorem C91_unwritten_refuted : ∃ (t : Term (List (Str × Face))) (steps : List RunStep) (r : Running (List (Str × Face))) (ds : List Draw),
    Term.new 30 6 [] = .ok t ∧
    (Running.start t).run fragmentTexts bare JsonText.parse (fun l => l) steps = .ok (r, ds) ∧
    r.app.term.connection.sent = [Call.request (.number 0) (.keys [⟨false, false, false, .char 'j'⟩])] ∧
    ∀ more r' ds', r.run fragmentTexts bare JsonText.parse (fun l => l) more = .ok (r', ds') → r'.written = [] := by
  refine ⟨⟨Connection.new, false, 30, 6⟩, [.task (.key ⟨.char 'j', false, false, false⟩), .task (.key ⟨.char 'q', false, true, false⟩),
    .task .treat, .task .treat], ⟨⟨⟨⟨.empty, [Call.request (.number 0) (.keys [⟨false, false, false, .char 'j'⟩])], 1⟩, true, 30, 6⟩, []⟩,
    false, true, 0, []⟩, [], rfl, by rfl, rfl, fun more r' ds' h => ?_⟩
  rw [(C91_after rfl h).1]

/-- The program of the examples: a file is asked for, a key is pressed, the requests are written, then the connection is lost. -/
def exampleEnding (steps : List RunStep) : R (Running (List (Str × Face)) × List Draw) := do
  let t ← Term.new 30 6 [str!"f"]
  (Running.start t).run fragmentTexts bare JsonText.parse (fun l => l)
    ([.task (.key ⟨.char 'j', false, false, false⟩), .write true, .task .treat, .write true, .task .treat, .task (.size 20 5), .lost] ++ steps)

/-- C91_only, C91_lost, C91_requests and C91_flush apply: both requests are written and the program ends by itself, the change of size
treated. -/
example : (exampleEnding [.task .treat, .task .treat]).toOption.map (fun x => (x.1.ended, x.1.written, x.1.app.term.width)) =
    some (true, [Call.request (.number 0) (.edit str!"f" false),
      Call.request (.number 1) (.keys [⟨false, false, false, .char 'j'⟩])], 20) := by decide +kernel
/-- C91_crash_refuted applies: a key before that is a crash. -/
example : (exampleEnding []).toOption.map (fun x => (x.1.ended, x.1.closed)) = some (false, true) ∧
    (exampleEnding [.task (.key ⟨.char 'j', false, false, false⟩)]).toOption.isNone = true := by decide +kernel
/-- C91_leaves applies. -/
example : (do
    let t : Term (List (Str × Face)) ← Term.new 30 6 []
    (Running.start t).run fragmentTexts bare JsonText.parse (fun l => l)
      [.task (.key ⟨.char 'q', false, true, false⟩)] : R (Running (List (Str × Face)) × List Draw)).toOption.map (fun x => (x.1.ended, x.1.app.term.exitPending, x.1.app.term.connection.state.menu.isNone, x.1.app.queue.length)) =
    some (false, false, true, 1) ∧ Pressed.event ⟨.char 'q', false, true, false⟩ = some ⟨false, true, false, .char 'q'⟩ := by decide +kernel

end Ced.Props

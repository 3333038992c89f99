import Verif.Props.Tui

/-!
# The size of the terminal: C76

When the size of the terminal changes, the program draws what is on the screen again, for the new size.
-/

namespace Ced.Props
open Spec Tui
variable {T : Type} {p : Paint T} {o : Ornament T} {parse : Str → Option Json} {errText : Str → Str}

/-- The size of the terminal after these steps: the last one that was told, or the one at the beginning. -/
def lastSize (size : Nat × Nat) : List Tui.Step → Nat × Nat
  | [] => size
  | .size w h :: ss => lastSize (w, h) ss
  | _ :: ss => lastSize size ss

/-- A drawing of the rows of this view, on a screen of this size. -/
def ViewDrawnAt (p : Paint T) (w h : Nat) (view : List (RemoteItem T)) (d : Draw) : Prop :=
  ∃ content, d = .at 0 0 false (Str.join str!"\r\n" content) ∧ List.Forall₂ (RowShown p w) (drawn h (rowsOf view)) content

theorem lastView_viewAt {w h : Nat} {s : ConnectionState T} {ds : List Draw} (hd : drawView p w h s = .ok ds) :
    ∃ d, lastView ds = some d ∧ ViewDrawnAt p w h s.view d := by
  obtain ⟨content, st, e, h1, h2⟩ := C60_rows hd
  refine ⟨_, ?_, content, rfl, h2⟩
  rw [e, lastView_append, lastView_status h1]; rfl

/-- The size after the events that wait. -/
def sizeAfter (size : Nat × Nat) : List (Event T) → Nat × Nat
  | [] => size
  | .resize w h :: q => sizeAfter (w, h) q
  | _ :: q => sizeAfter size q

theorem sizeAfter_append (size : Nat × Nat) (q1 q2 : List (Event T)) :
    sizeAfter size (q1 ++ q2) = sizeAfter (sizeAfter size q1) q2 := by
  induction q1 generalizing size with
  | nil => rfl
  | cons e q ih => cases e <;> exact ih _

theorem sizeAfter_event (errText : Str) (size : Nat × Nat) (e : ConnectionEvent T) :
    sizeAfter size (eventOf errText e).toList = size := by
  cases e <;> rfl

/-- What the treatment of an event does to the view that is drawn. -/
def DrawsView (p : Paint T) (t t' : Term T) (ds : List Draw) : Prop :=
  t'.connection.state.menu ≠ none ∨
  (∃ d, lastView ds = some d ∧ ViewDrawnAt p t'.width t'.height t'.connection.state.view d) ∨
  (t'.connection.state.view = t.connection.state.view ∧ t'.width = t.width ∧ t'.height = t.height ∧
    t.connection.state.menu = none ∧ lastView ds = none)

/-- What is said of the treatment of an event. -/
structure Treated (p : Paint T) (e : Event T) (t t' : Term T) (ds : List Draw) : Prop where
  size : (t'.width, t'.height) = sizeAfter (t.width, t.height) [e]
  view : DrawsView p t t' ds
  drawn : e = .drawView → ∃ d, lastView ds = some d ∧ ViewDrawnAt p t'.width t'.height t'.connection.state.view d

theorem call_view {t t' : Term T} {x : Call} {ds : List Draw} (h : t.call x = .ok (t', ds)) :
    DrawsView p t t' ds ∧ t'.width = t.width ∧ t'.height = t.height := by
  obtain ⟨c, h1, rfl, rfl⟩ := term_call h
  simp only [Connection.call, Connection.requestId] at h1
  split at h1
  · cases h1
    by_cases hm : t.connection.state.menu = none
    · exact ⟨.inr (.inr ⟨rfl, rfl, rfl, hm, rfl⟩), rfl, rfl⟩
    · exact ⟨.inl hm, rfl, rfl⟩
  · cases h1

theorem same_view {t : Term T} {ds : List Draw} (h : lastView ds = none) : DrawsView p t t ds := by
  by_cases hm : t.connection.state.menu = none
  · exact .inr (.inr ⟨rfl, rfl, rfl, hm, h⟩)
  · exact .inl hm

theorem input_treated {t t' : Term T} {k : Pressed} {ds : List Draw} (h : t.handleInput p k = .ok (t', ds)) :
    DrawsView p t t' ds ∧ t'.width = t.width ∧ t'.height = t.height := by
  have viewCase : ∀ {c : Connection T} {t' : Term T} {ds : List Draw}, t.view p c = .ok (t', ds) →
      DrawsView p t t' ds ∧ t'.width = t.width ∧ t'.height = t.height := by
    intro c t' ds h
    unfold Term.view at h
    obtain ⟨d, h1, h⟩ := bind_inv h
    cases h
    exact ⟨.inr (.inl (lastView_viewAt h1)), rfl, rfl⟩
  have menuCase : ∀ {c : Connection T} {t' : Term T} {ds : List Draw}, t.menu p c = .ok (t', ds) →
      DrawsView p t t' ds ∧ t'.width = t.width ∧ t'.height = t.height := by
    intro c t' ds h
    unfold Term.menu at h
    obtain ⟨m, h1, h⟩ := bind_inv h
    obtain ⟨d, h2, h⟩ := bind_inv h
    cases h
    refine ⟨.inl ?_, rfl, rfl⟩
    rw [unwrap_inv h1]
    simp
  have same : DrawsView p t t [] ∧ t.width = t.width ∧ t.height = t.height := ⟨same_view rfl, rfl, rfl⟩
  unfold Term.handleInput at h
  split at h
  · cases h; exact same
  · rename_i ev hev
    split at h
    · rename_i m hm
      unfold Term.menuKey at h
      split at h
      · exact viewCase h
      · obtain ⟨c1, h1, h⟩ := bind_inv h
        exact viewCase h
      · exact menuCase h
      · obtain ⟨c1, h1, h⟩ := bind_inv h
        exact menuCase h
      · exact call_view h
      · exact call_view h
      · cases h; exact same
    · unfold Term.plainKey at h
      rename_i hm
      rcases ite_inv h with ⟨_, h⟩ | ⟨_, h⟩
      · cases h; exact ⟨.inr (.inr ⟨rfl, rfl, rfl, hm, rfl⟩), rfl, rfl⟩
      rcases ite_inv h with ⟨_, h⟩ | ⟨_, h⟩
      · exact call_view h
      rcases ite_inv h with ⟨_, h⟩ | ⟨_, h⟩
      · exact call_view h
      rcases ite_inv h with ⟨_, h⟩ | ⟨_, h⟩
      · exact call_view h
      rcases ite_inv h with ⟨_, h⟩ | ⟨_, h⟩
      · exact call_view h
      rcases ite_inv h with ⟨_, h⟩ | ⟨_, h⟩
      · exact call_view h
      rcases ite_inv h with ⟨_, h⟩ | ⟨_, h⟩
      · cases h
      split at h
      · exact call_view h
      · exact call_view h
      · cases h; exact same

theorem treat_treated {t t' : Term T} {e : Event T} {ds : List Draw} (h : t.treat p e = .ok (t', ds)) : Treated p e t t' ds := by
  cases e with
  | drawMenu m =>
    obtain ⟨d, h1, h⟩ := bind_inv h; cases h
    exact ⟨rfl, same_view (lastView_menu h1), fun e => by cases e⟩
  | drawView =>
    obtain ⟨d, h1, h⟩ := bind_inv h; cases h
    exact ⟨rfl, .inr (.inl (lastView_viewAt h1)), fun _ => lastView_viewAt h1⟩
  | drawHint m =>
    obtain ⟨d, h1, h⟩ := bind_inv h; cases h
    exact ⟨rfl, same_view (lastView_hint h1), fun e => by cases e⟩
  | drawStatus =>
    obtain ⟨d, h1, h⟩ := bind_inv h; cases h
    exact ⟨rfl, same_view (lastView_status h1), fun e => by cases e⟩
  | error msg =>
    obtain ⟨h1, h2, h3⟩ := call_view (p := p) h
    exact ⟨by rw [h2, h3]; rfl, h1, fun e => by cases e⟩
  | input k =>
    obtain ⟨h1, h2, h3⟩ := input_treated h
    exact ⟨by rw [h2, h3]; rfl, h1, fun e => by cases e⟩
  | resize w hh =>
    have h : t.resize p w hh = .ok (t', ds) := h
    unfold Term.resize at h
    split at h
    · dsimp only at h
      split at h
      · rename_i m hm
        obtain ⟨d, h1, h⟩ := bind_inv h; cases h
        refine ⟨rfl, .inl ?_, fun e => by cases e⟩
        show t.connection.state.menu ≠ none
        rw [hm]; simp
      · obtain ⟨d, h1, h⟩ := bind_inv h; cases h
        exact ⟨rfl, .inr (.inl (lastView_viewAt h1)), fun e => by cases e⟩
    · rename_i hs
      cases h
      have hs : (t.width, t.height) = (w, hh) := Decidable.of_not_not hs
      exact ⟨hs, same_view rfl, fun e => by cases e⟩

/-- A menu is open, or the view is going to be drawn, or it was drawn as it is, for the present size. -/
def FreshView (p : Paint T) (a : App T) (ds : List Draw) : Prop :=
  a.term.connection.state.menu ≠ none ∨ .drawView ∈ a.queue ∨
  ∃ d, lastView ds = some d ∧ ViewDrawnAt p a.term.width a.term.height a.term.connection.state.view d

theorem receive_menuView (errText : Str) (c : Connection T) (l : Str) :
    ((c.receive o parse l).1.state.menu = c.state.menu ∧ (c.receive o parse l).1.state.view = c.state.view) ∨
      (c.receive o parse l).1.state.menu ≠ none ∨ eventOf errText (c.receive o parse l).2 = some .drawView := by
  rcases receive_view (o := o) (parse := parse) errText c l with h | h
  · unfold Connection.receive at h ⊢
    split
    · rename_i e he
      cases e with
      | response r => exact .inl ⟨rfl, rfl⟩
      | notification n =>
        show ((c.state.eventUpdate o (.notification n)).1.menu = _ ∧ (c.state.eventUpdate o (.notification n)).1.view = _) ∨
          (c.state.eventUpdate o (.notification n)).1.menu ≠ none ∨
          eventOf errText ((c.state.eventUpdate o (.notification n)).2.getD .noop) = _
        unfold ConnectionState.eventUpdate
        dsimp only
        split
        · split <;> exact .inl ⟨rfl, rfl⟩
        split
        · exact .inl ⟨rfl, rfl⟩
        split
        · split <;> exact .inl ⟨rfl, rfl⟩
        split
        · split
          · exact .inr (.inl (by simp))
          · exact .inl ⟨rfl, rfl⟩
        split
        · split <;> exact .inl ⟨rfl, rfl⟩
        split
        · split
          · exact .inr (.inr rfl)
          · exact .inl ⟨rfl, rfl⟩
        · exact .inl ⟨rfl, rfl⟩
    · exact .inl ⟨rfl, rfl⟩
  · exact .inr (.inr h)

theorem freshView_step {s : Tui.Step} {a a' : App T} {ds0 ds : List Draw} (hf : FreshView p a ds0)
    (h1 : a.step o p parse errText s = .ok (a', ds)) : FreshView p a' (ds0 ++ ds) := by
  cases s with
  | line l =>
    simp only [App.step, Except.ok.injEq, Prod.mk.injEq] at h1
    obtain ⟨rfl, rfl⟩ := h1
    rw [List.append_nil]
    rcases receive_menuView (o := o) (parse := parse) (errText l) a.term.connection l with ⟨e1, e2⟩ | hv | hv
    · rcases hf with hf | hf | ⟨d, hd, hs⟩
      · exact .inl (by rw [← e1] at hf; exact hf)
      · exact .inr (.inl (List.mem_append_left _ hf))
      · refine .inr (.inr ⟨d, hd, ?_⟩)
        show ViewDrawnAt p a.term.width a.term.height (a.term.connection.receive o parse l).1.state.view d
        rw [e2]; exact hs
    · exact .inl hv
    · exact .inr (.inl (List.mem_append_right _ (by rw [hv]; simp)))
  | key k =>
    cases h1; rw [List.append_nil]
    exact hf.imp id fun hf => hf.imp (fun hf => List.mem_append_left _ hf) id
  | size w hh =>
    cases h1; rw [List.append_nil]
    exact hf.imp id fun hf => hf.imp (fun hf => List.mem_append_left _ hf) id
  | fault text =>
    cases h1; rw [List.append_nil]
    exact hf.imp id fun hf => hf.imp (fun hf => List.mem_append_left _ hf) id
  | treat =>
    simp only [App.step] at h1
    rcases ite_inv h1 with ⟨_, h1⟩ | ⟨_, h1⟩
    · cases h1; rw [List.append_nil]; exact hf
    · cases hq : a.queue with
      | nil => simp only [hq] at h1; cases h1; rw [List.append_nil]; exact hf
      | cons e q =>
        simp only [hq] at h1
        obtain ⟨⟨t, d⟩, ht, h1⟩ := bind_inv h1
        cases h1
        have tr := treat_treated ht
        have drawn : ∀ {x}, lastView d = some x → ViewDrawnAt p t.width t.height t.connection.state.view x →
            FreshView p { term := t, queue := q } (ds0 ++ d) := fun hx hv =>
          .inr (.inr ⟨_, by rw [lastView_append, hx]; rfl, hv⟩)
        rcases tr.view with hm | ⟨x, hx, hv⟩ | ⟨v1, v2, v3, v4, v5⟩
        · exact .inl hm
        · exact drawn hx hv
        · unfold FreshView at hf
          rw [hq] at hf
          rcases hf with hf | hf | ⟨x, hx, hv⟩
          · exact absurd v4 hf
          · rcases List.mem_cons.1 hf with hf | hf
            · obtain ⟨x, hx, hv⟩ := tr.drawn hf.symm
              exact drawn hx hv
            · exact .inr (.inl hf)
          · refine .inr (.inr ⟨x, by rw [lastView_append, v5]; exact hx, ?_⟩)
            dsimp only
            rw [v1, v2, v3]
            exact hv

theorem freshView_run {steps : List Tui.Step} {a a' : App T} {ds0 ds : List Draw} (hf : FreshView p a ds0)
    (h : a.run o p parse errText steps = .ok (a', ds)) : FreshView p a' (ds0 ++ ds) := by
  induction steps generalizing a ds0 ds with
  | nil => cases h; simpa using hf
  | cons s ss ih =>
    obtain ⟨⟨a1, d1⟩, h1, h⟩ := bind_inv h
    obtain ⟨⟨a2, d2⟩, h2, h⟩ := bind_inv h
    cases h
    rw [← List.append_assoc]
    exact ih (freshView_step hf h1) h2

theorem size_step {s : Tui.Step} {a a' : App T} {ds : List Draw} (h1 : a.step o p parse errText s = .ok (a', ds)) :
    sizeAfter (a'.term.width, a'.term.height) a'.queue =
      lastSize (sizeAfter (a.term.width, a.term.height) a.queue) [s] := by
  cases s with
  | line l =>
    simp only [App.step, Except.ok.injEq, Prod.mk.injEq] at h1
    obtain ⟨rfl, rfl⟩ := h1
    dsimp only
    rw [sizeAfter_append, sizeAfter_event]; rfl
  | key k => cases h1; dsimp only; rw [sizeAfter_append]; rfl
  | size w hh => cases h1; dsimp only; rw [sizeAfter_append]; rfl
  | fault text => cases h1; dsimp only; rw [sizeAfter_append]; rfl
  | treat =>
    simp only [App.step] at h1
    rcases ite_inv h1 with ⟨_, h1⟩ | ⟨_, h1⟩
    · cases h1; rfl
    · cases hq : a.queue with
      | nil => simp only [hq] at h1; cases h1; rw [hq]; rfl
      | cons e q =>
        simp only [hq] at h1
        obtain ⟨⟨t, d⟩, ht, h1⟩ := bind_inv h1
        cases h1
        have tr := (treat_treated ht).size
        dsimp only
        rw [tr, ← sizeAfter_append]; rfl

theorem lastSize_cons (size : Nat × Nat) (s : Tui.Step) (ss : List Tui.Step) :
    lastSize size (s :: ss) = lastSize (lastSize size [s]) ss := by
  cases s <;> rfl

theorem size_run {steps : List Tui.Step} {a a' : App T} {ds : List Draw}
    (h : a.run o p parse errText steps = .ok (a', ds)) :
    sizeAfter (a'.term.width, a'.term.height) a'.queue =
      lastSize (sizeAfter (a.term.width, a.term.height) a.queue) steps := by
  induction steps generalizing a ds with
  | nil => cases h; rfl
  | cons s ss ih =>
    obtain ⟨⟨a1, d1⟩, h1, h⟩ := bind_inv h
    obtain ⟨⟨a2, d2⟩, h2, h⟩ := bind_inv h
    cases h
    rw [ih h2, size_step h1, ← lastSize_cons]

/-- C76: for every schedule, when the main loop has treated all the events, the size it draws for is the last one that the
terminal told. -/
theorem C76_size {w h : Nat} {files : List Str} {t : Term T} (ht : Term.new w h files = .ok t) {steps : List Tui.Step}
    {a : App T} {ds : List Draw} (hr : App.run o p parse errText { term := t, queue := [] } steps = .ok (a, ds))
    (hq : a.queue = []) : (a.term.width, a.term.height) = lastSize (w, h) steps := by
  have := size_run hr
  obtain ⟨_, _, _, h1, h2⟩ := new_numbered ht
  rw [hq] at this
  simpa [sizeAfter, h1, h2] using this

/-- C76: for every schedule, once the server has sent a view: when the main loop has treated all the events and no menu is
open, the last view drawn is the one the terminal was last sent, drawn for the last size that the terminal told. -/
theorem C76_fitted (ho : OrnamentOk o) (hp : JsonText.ReadsBack parse) {w h : Nat} {files : List Str} {t : Term T}
    (ht : Term.new w h files = .ok t) {steps1 steps2 : List Tui.Step} {items : List ViewParamsItem} (hf : Fits (.view items))
    {a : App T} {ds : List Draw}
    (hr : App.run o p parse errText { term := t, queue := [] }
      (steps1 ++ .line ((Wire.note (.view items)).encode o).write :: steps2) = .ok (a, ds))
    (hq : a.queue = []) (hm : a.term.connection.state.menu = none) :
    ∃ d, lastView ds = some d ∧
      ViewDrawnAt p (lastSize (w, h) (steps1 ++ .line ((Wire.note (.view items)).encode o).write :: steps2)).1
        (lastSize (w, h) (steps1 ++ .line ((Wire.note (.view items)).encode o).write :: steps2)).2
        a.term.connection.state.view d := by
  rw [← C76_size ht hr hq]
  obtain ⟨b, d1, d2, h1, h2, rfl⟩ := app_append hr
  obtain ⟨⟨b1, e1⟩, h3, h2⟩ := bind_inv h2
  obtain ⟨⟨b2, e2⟩, h4, h2⟩ := bind_inv h2
  cases h2
  simp only [App.step, Except.ok.injEq, Prod.mk.injEq] at h3
  obtain ⟨rfl, rfl⟩ := h3
  have := freshView_run (ds0 := d1) (p := p) (.inr (.inl (List.mem_append_right _ (by
    rw [receive_event ho hp hf]; exact List.mem_cons_self)))) h4
  rcases this with this | this | this
  · exact absurd hm this
  · rw [hq] at this; cases this
  · exact this

/-- A terminal that reads a view, and whose size then changes. -/
def exampleResized : R (App (List (Str × Face)) × List Draw) := do
  let t ← Term.new 30 6 [str!"f"]
  let ls := readLines (exampleWires.flatMap fun w => frame (w.encode fragmentTexts))
  App.run fragmentTexts bare JsonText.parse (fun _ => []) { term := t, queue := [] }
    ((ls.take 3).map .line ++ [.size 20 5, .treat, .treat, .treat, .size 12 4, .treat, .treat])

/-- C76_size and C76_fitted apply: the header is drawn for the width 12. -/
example : exampleResized.toOption.map (fun x => (x.1.term.width, x.1.term.height, x.1.queue.length, x.1.term.connection.state.menu.isNone)) =
    some (12, 4, 0, true) := by decide +kernel
example : exampleResized.toOption.bind (fun x => lastView x.2) =
    some (.at 0 0 false str!"-[f][1:1]---\r\na ") := by decide +kernel

end Ced.Props

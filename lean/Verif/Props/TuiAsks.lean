import Verif.Props.Tui

/-! # All that the terminal asks of the server while no menu is open (C73) -/

namespace Ced.Props
open Spec Tui

variable {T : Type} {o : Ornament T} {p : Paint T} {parse : Str → Option Json} {errText : Str → Str}

/-- The request that reports a line of the server that could not be read. -/
def report (text : Str) : Call := .exec (str!"editor:error(" ++ text ++ str!")")

/-- What a step of the terminal's tasks makes it ask for: a key what it is bound to, a line that cannot be read a report, and so does an
error of the terminal. -/
def stepAsks (parse : Str → Option Json) (errText : Str → Str) : Tui.Step → List Call
  | .key k => k.event.toList.flatMap boundCalls
  | .line l => if ((parse l).bind ClientEvent.decode).isNone then [report (errText l)] else []
  | .fault text => [report (str!"\"event read: " ++ text ++ str!"\"")]
  | _ => []

/-- What an event that waits will make it ask for. -/
def eventAsks : Event T → List Call
  | .input k => k.event.toList.flatMap boundCalls
  | .error msg => [report msg]
  | _ => []

/-- The key that leaves the terminal. -/
def LeavingKey (k : KeyEvent) : Prop := k.key = .char 'q' ∧ k.alt = true

/-- What holds while no menu opens and the leaving key is not pressed. -/
structure Asking (a : App T) (calls all : List Call) : Prop where
  numbered : Numbered a.term.connection calls
  menu : a.term.connection.state.menu = none
  stays : a.term.exitPending = false
  asked : calls ++ a.queue.flatMap eventAsks = all
  none : ∀ k, .input k ∈ a.queue → ∀ ev, k.event = some ev → ¬ LeavingKey ev

theorem treat_other {t t' : Term T} {e : Event T} {ds : List Draw} (h : t.treat p e = .ok (t', ds))
    (hm : t.connection.state.menu = none) {calls : List Call} (hn : Numbered t.connection calls)
    (he : ∀ k, e ≠ .input k) :
    Numbered t'.connection (calls ++ eventAsks e) ∧ t'.connection.state = t.connection.state ∧
      t'.exitPending = t.exitPending := by
  have none_ : ∀ {t'' : Term T}, eventAsks e = [] → t''.connection = t.connection → t''.exitPending = t.exitPending → t' = t'' →
      Numbered t'.connection (calls ++ eventAsks e) ∧ t'.connection.state = t.connection.state ∧
      t'.exitPending = t.exitPending := by
    intro t'' h0 h1 h2 h3
    subst h3
    exact ⟨by rw [h0, List.append_nil, h1]; exact hn, by rw [h1], h2⟩
  cases e with
  | drawMenu m =>
    obtain ⟨d, h1, h⟩ := bind_inv h
    cases h; exact none_ rfl rfl rfl rfl
  | drawView =>
    obtain ⟨d, h1, h⟩ := bind_inv h
    cases h; exact none_ rfl rfl rfl rfl
  | drawHint m =>
    obtain ⟨d, h1, h⟩ := bind_inv h
    cases h; exact none_ rfl rfl rfl rfl
  | drawStatus =>
    obtain ⟨d, h1, h⟩ := bind_inv h
    cases h; exact none_ rfl rfl rfl rfl
  | error msg =>
    obtain ⟨c1, h1, rfl, _⟩ := term_call h
    obtain ⟨h2, h3⟩ := numbered_call hn h1
    exact ⟨h2, h3, rfl⟩
  | input k => exact absurd rfl (he k)
  | resize w hh =>
    have h : t.resize p w hh = .ok (t', ds) := h
    unfold Term.resize at h
    split at h
    · dsimp only at h
      rw [hm] at h
      obtain ⟨d, h1, h⟩ := bind_inv h
      injection h with h
      injection h with h h'
      exact none_ (t'' := { t with width := w, height := hh }) rfl rfl rfl h.symm
    · cases h; exact none_ rfl rfl rfl rfl

theorem line_asks (c : Connection T) (l : Str) :
    (eventOf (errText l) (c.receive o parse l).2).toList.flatMap eventAsks = stepAsks parse errText (.line l) := by
  simp only [Connection.receive, stepAsks]
  cases (parse l).bind ClientEvent.decode with
  | none => rfl
  | some e =>
    simp only [Option.isNone_some, Bool.false_eq_true, if_false]
    have : ∀ ev : Option (ConnectionEvent T), ev ≠ some .connErr →
        (eventOf (errText l) (ev.getD .noop)).toList.flatMap eventAsks = [] := by
      intro ev h
      cases ev with
      | none => rfl
      | some ev => cases ev <;> first | rfl | exact absurd rfl h
    refine this _ ?_
    cases e with
    | response r => intro h; cases h
    | notification n =>
      simp only [ConnectionState.eventUpdate]
      repeat' split
      all_goals (intro h; first | cases h | (rw [Option.map_eq_some_iff] at h; obtain ⟨x, _, h⟩ := h; cases h))

theorem asking_step {a a' : App T} {ds : List Draw} {calls all : List Call} (h : Asking a calls all)
    {s : Tui.Step} (hs : a.step o p parse errText s = .ok (a', ds)) (hl : ∀ l, s = .line l → OpensNone o parse l)
    (hk : ∀ k ∈ pressedIn [s], ¬ LeavingKey k) : ∃ calls', Asking a' calls' (all ++ stepAsks parse errText s) := by
  obtain ⟨h1, h2, h3, h4, h5⟩ := h
  cases s with
  | line l =>
    simp only [App.step, Except.ok.injEq, Prod.mk.injEq] at hs
    obtain ⟨rfl, _⟩ := hs
    refine ⟨calls, ⟨?_, hl l rfl _ h2, h3, ?_, ?_⟩⟩
    · exact ⟨by rw [(receive_sent _ _).1]; exact h1.1, by rw [(receive_sent _ _).2]; exact h1.2⟩
    · show calls ++ (a.queue ++ _).flatMap eventAsks = _
      rw [List.flatMap_append, line_asks, ← List.append_assoc, h4]
    · intro k hm
      rcases List.mem_append.1 hm with hm | hm
      · exact h5 k hm
      · exfalso
        rw [Option.mem_toList] at hm
        revert hm
        cases (a.term.connection.receive o parse l).2 <;> intro hm <;> cases hm
  | key k =>
    simp only [App.step, Except.ok.injEq, Prod.mk.injEq] at hs
    obtain ⟨rfl, _⟩ := hs
    refine ⟨calls, ⟨h1, h2, h3, ?_, ?_⟩⟩
    · show calls ++ (a.queue ++ [_]).flatMap eventAsks = _
      rw [List.flatMap_append, ← List.append_assoc, h4]
      congr 1
      exact List.append_nil _
    · intro k' hm ev he
      rcases List.mem_append.1 hm with hm | hm
      · exact h5 k' hm ev he
      · rw [List.mem_singleton] at hm
        cases hm
        exact hk ev (by simp [pressedIn, he])
  | size w hh =>
    simp only [App.step, Except.ok.injEq, Prod.mk.injEq] at hs
    obtain ⟨rfl, _⟩ := hs
    refine ⟨calls, ⟨h1, h2, h3, ?_, ?_⟩⟩
    · show calls ++ (a.queue ++ [_]).flatMap eventAsks = _
      rw [List.flatMap_append, ← List.append_assoc, h4]; rfl
    · intro k' hm ev he
      rcases List.mem_append.1 hm with hm | hm
      · exact h5 k' hm ev he
      · rw [List.mem_singleton] at hm
        cases hm
  | fault text =>
    simp only [App.step, Except.ok.injEq, Prod.mk.injEq] at hs
    obtain ⟨rfl, _⟩ := hs
    refine ⟨calls, ⟨h1, h2, h3, ?_, ?_⟩⟩
    · show calls ++ (a.queue ++ [_]).flatMap eventAsks = _
      rw [List.flatMap_append, ← List.append_assoc, h4]; rfl
    · intro k' hm ev he
      rcases List.mem_append.1 hm with hm | hm
      · exact h5 k' hm ev he
      · rw [List.mem_singleton] at hm
        cases hm
  | treat =>
    have hp : all ++ stepAsks parse errText Step.treat = all := List.append_nil _
    rw [hp]
    simp only [App.step] at hs
    rw [if_neg (by simp [h3])] at hs
    cases hq : a.queue with
    | nil =>
      simp only [hq] at hs
      cases hs
      exact ⟨calls, ⟨h1, h2, h3, h4, h5⟩⟩
    | cons e q =>
      simp only [hq] at hs
      obtain ⟨⟨t, d⟩, ht, hs⟩ := bind_inv hs
      cases hs
      have h6 : ∀ k, .input k ∈ q → ∀ ev, k.event = some ev → ¬ LeavingKey ev :=
        fun k hm => h5 k (by rw [hq]; exact List.mem_cons_of_mem _ hm)
      rw [hq, List.flatMap_cons, ← List.append_assoc] at h4
      by_cases hi : ∃ k, e = .input k
      · obtain ⟨k, rfl⟩ := hi
        have ht : a.term.handleInput p k = .ok (t, _) := ht
        cases hev : k.event with
        | none =>
          unfold Term.handleInput at ht
          rw [hev] at ht
          cases ht
          have e1 : eventAsks (T := T) (.input k) = [] := by simp [eventAsks, hev]
          rw [e1, List.append_nil] at h4
          exact ⟨calls, ⟨h1, h2, h3, h4, h6⟩⟩
        | some ev =>
          obtain ⟨i1, i2, _, i4, _⟩ := C73_plain h2 hev h1 ht
          have ho := h5 k (by rw [hq]; exact List.mem_cons_self) ev hev
          have e1 : eventAsks (T := T) (.input k) = boundCalls ev := by simp [eventAsks, hev]
          rw [e1] at h4
          refine ⟨_, ⟨i1, by rw [i2]; exact h2, ?_, h4, h6⟩⟩
          rw [i4, h3]
          simp only [Bool.false_or]
          by_cases h7 : ev.key = .char 'q'
          · cases h8 : ev.alt
            · simp
            · exact absurd ⟨h7, h8⟩ ho
          · simp [h7]
      · obtain ⟨i1, i3, i4⟩ := treat_other ht h2 h1 fun k hk => hi ⟨k, hk⟩
        exact ⟨_, ⟨i1, by rw [i3]; exact h2, by rw [i4, h3], h4, h6⟩⟩

theorem asking_run {steps : List Tui.Step} {a a' : App T} {ds : List Draw} {calls all : List Call}
    (h : Asking a calls all) (hr : a.run o p parse errText steps = .ok (a', ds))
    (hl : ∀ l, .line l ∈ steps → OpensNone o parse l) (hk : ∀ k ∈ pressedIn steps, ¬ LeavingKey k) :
    ∃ calls', Asking a' calls' (all ++ steps.flatMap (stepAsks parse errText)) := by
  induction steps generalizing a ds calls all with
  | nil => cases hr; exact ⟨calls, by simpa using h⟩
  | cons s ss ih =>
    obtain ⟨⟨a1, d1⟩, h1, hr⟩ := bind_inv hr
    obtain ⟨⟨a2, d2⟩, h2, hr⟩ := bind_inv hr
    cases hr
    rw [pressedIn_cons] at hk
    obtain ⟨c1, t1⟩ := asking_step h h1 (fun l e => hl l (e ▸ List.mem_cons_self ..)) fun k hk' => hk k (List.mem_append_left _ hk')
    obtain ⟨c2, t2⟩ := ih t1 h2 (fun l hl' => hl l (List.mem_cons_of_mem _ hl')) fun k hk' => hk k (List.mem_append_right _ hk')
    exact ⟨c2, by rw [List.flatMap_cons, ← List.append_assoc]; exact t2⟩

/-- C73 (everything that is asked): for every schedule, as long as no menu opens and the leaving key is not pressed: the
requests of the terminal are, in order and without gaps, the files of the command line, then for each key what it is bound
to and for each line that could not be read and each error of the terminal a report; those of the events that wait will follow; there are no others. -/
theorem C73_asks {w h : Nat} {files : List Str} {t : Term T} (ht : Term.new w h files = .ok t) {steps : List Tui.Step}
    {a : App T} {ds : List Draw} (hr : App.run o p parse errText { term := t, queue := [] } steps = .ok (a, ds))
    (hl : ∀ l, .line l ∈ steps → OpensNone o parse l) (hk : ∀ k ∈ pressedIn steps, ¬ LeavingKey k) :
    ∃ calls, a.term.connection.sent = (calls.zipIdx).map (fun x => Call.request (.number x.2) x.1) ∧
      calls ++ a.queue.flatMap eventAsks =
        files.map (fun f => .edit f false) ++ steps.flatMap (stepAsks parse errText) := by
  obtain ⟨h1, h2, h3, _⟩ := new_numbered ht
  have start : Asking { term := t, queue := [] } (files.map fun f => .edit f false) (files.map fun f => .edit f false) := by
    exact ⟨h1, by rw [h2]; rfl, h3, List.append_nil _, fun k hk => (by cases hk)⟩
  obtain ⟨calls, t⟩ := asking_run start hr hl hk
  exact ⟨calls, t.numbered.1, t.asked⟩

/-- The hypotheses are met, with a line that cannot be read and a key: both are asked for, after the file. -/
def exampleAsks : R (App (List (Str × Face)) × List Draw) := do
  let t ← Term.new 30 6 [str!"f"]
  App.run fragmentTexts bare JsonText.parse (fun l => str!"no: " ++ l) { term := t, queue := [] }
    [.line str!"?", .fault str!"eof", .key ⟨.char 'j', false, false, false⟩, .treat, .treat, .treat]

example : exampleAsks.toOption.map (fun x => (x.1.term.connection.sent, x.1.queue.length)) =
    some ([Call.request (.number 0) (.edit str!"f" false),
      Call.request (.number 1) (.exec str!"editor:error(no: ?)"),
      Call.request (.number 2) (.exec str!"editor:error(\"event read: eof\")"),
      Call.request (.number 3) (.keys [⟨false, false, false, .char 'j'⟩])], 0) := by decide +kernel

example : OpensNone fragmentTexts JsonText.parse str!"?" := by
  intro c h
  have : (JsonText.parse str!"?").bind ClientEvent.decode = none := by decide +kernel
  simp only [Connection.receive, this]; exact h

end Ced.Props

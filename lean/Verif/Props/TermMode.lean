import Verif.Model.TermMode
import Verif.Props.TuiEnd

/-! # C108: the terminal is given back as it was -/

namespace Ced.Props
open Spec Tui

variable {T : Type} {o : Ornament T} {p : Paint T} {parse : Str → Option Json} {errText : Str → Str}

namespace C108

/-- Nothing but writing on the alternate screen happened between the two. -/
def Written (d d' : Device) : Prop :=
  d'.raw = d.raw ∧ d'.alternate = d.alternate ∧ d'.hidden = d.hidden ∧ d'.main = d.main

theorem show_alternate {d : Device} (h : d.alternate = true) (l : List Shown) :
    d.show l = { d with alt := d.alt ++ l } := by simp [Device.show, h]

theorem play_written {r : Running T} {d : Device} (ha : d.alternate = true) (steps : List (RunStep × Fault)) :
    Written d (play o p parse errText r d steps).1 ∧ (play o p parse errText r d steps).2 ≠ .aborted := by
  induction steps generalizing r d with
  | nil => simp only [play]; refine ⟨⟨rfl, rfl, rfl, rfl⟩, ?_⟩; split <;> simp
  | cons s rest ih =>
    obtain ⟨s, f⟩ := s
    have one : ∀ l, Written d (d.show l) := fun l => by rw [show_alternate ha]; exact ⟨rfl, rfl, rfl, rfl⟩
    have two : ∀ l l', Written d ((d.show l).show l') := fun l l' => by
      rw [show_alternate ha, show_alternate (by exact ha)]; exact ⟨rfl, rfl, rfl, rfl⟩
    have more : ∀ (r' : Running T) l, Written d (play o p parse errText r' (d.show l) rest).1 ∧
        (play o p parse errText r' (d.show l) rest).2 ≠ .aborted := by
      intro r' l
      have ha' : (d.show l).alternate = true := by rw [show_alternate ha]; exact ha
      obtain ⟨⟨a1, a2, a3, a4⟩, b⟩ := ih (r := r') ha'
      obtain ⟨c1, c2, c3, c4⟩ := one l
      exact ⟨⟨a1.trans c1, a2.trans c2, a3.trans c3, a4.trans c4⟩, b⟩
    simp only [play]
    split
    · exact ⟨⟨rfl, rfl, rfl, rfl⟩, by simp⟩
    · split
      · exact ⟨one _, by simp⟩
      · split
        · exact ⟨one _, by simp⟩
        · split
          · split
            · exact ih ha
            · exact ⟨two _ _, by simp⟩
          · exact more _ _

/-- The device while the program runs. -/
def entered (d : Device) : Device := { d with raw := true, alternate := true, hidden := true, alt := [] }

theorem entered_eq (d : Device) :
    [ScreenCommand.enter, .hide].foldl ScreenCommand.run { d with raw := true } = entered d := rfl

theorem finish_left {c : Chances} {prior : Option Bool} {d : Device} {b : Bool} (hu : c.unraw = true) (hl : c.leave = .all) :
    finish c prior d b = ({ d with raw := prior.getD d.raw, alternate := false, hidden := false },
      if b then .crashed else .ended) := by
  cases prior <;> simp [finish, hu, hl, ScreenCommand.run]

end C108
open C108

/-- The program got as far as its main loop. -/
def Entered (c : Chances) : Prop :=
  c.log = true ∧ c.size.isSome = true ∧ c.log2 = true ∧ c.raw = true ∧ c.enter = .all ∧ c.connected = true

/-- Once it got there, the program is `play` between entering and leaving. -/
theorem program_entered {c : Chances} {d : Device} {w h : Nat} {files : List Str} {t : Term T} {steps : List (RunStep × Fault)}
    (he : Entered c) (hs : c.size = some (w, h)) (ht : Term.new w h files = .ok t) :
    program o p parse errText c d files steps =
      match play o p parse errText (Running.start t) (entered d) steps with
      | (d2, .running) => (d2, .running)
      | (d2, .ended) => finish c (some d.raw) d2 false
      | (d2, _) => finish c (some d.raw) d2 true := by
  obtain ⟨h1, _, h3, h4, h5, h6⟩ := he
  simp only [program, h1, hs, h3, ht, h4, h5, h6, entered_eq]
  simp only [Bool.true_eq_false, if_false]
  generalize play o p parse errText (Running.start t) (entered d) steps = x
  obtain ⟨x, y⟩ := x
  cases y <;> rfl

/-- C108: when the program ends — because the user leaves, because the connection is lost, or because it crashes, wherever this
happens — and the terminal obeys, then the mode of the terminal is the one it had, and its usual screen and its cursor are shown. -/
theorem C108_restored {c : Chances} {d d' : Device} {files : List Str} {steps : List (RunStep × Fault)} {out : Outcome}
    (h : program o p parse errText c d files steps = (d', out)) (ho : out ≠ .running) (hu : c.unraw = true)
    (hl : c.leave = .all) :
    d'.raw = d.raw ∧ (d.alternate = false → d'.alternate = false) ∧ (d.hidden = false → d'.hidden = false) ∧
      (out = .ended ∨ out = .crashed) := by
  have fin : ∀ (prior : Option Bool) (x : Device) (b : Bool), prior.getD x.raw = d.raw → finish c prior x b = (d', out) →
      d'.raw = d.raw ∧ (d.alternate = false → d'.alternate = false) ∧ (d.hidden = false → d'.hidden = false) ∧
        (out = .ended ∨ out = .crashed) := by
    intro prior x b hr hf
    rw [finish_left hu hl] at hf
    injection hf with h1 h2
    subst h1
    refine ⟨hr, fun _ => rfl, fun _ => rfl, ?_⟩
    cases b <;> simp at h2 <;> simp [← h2]
  have raw_show : ∀ (x : Device) l, (x.show l).raw = x.raw := fun x l => by unfold Device.show; split <;> rfl
  have still : ∀ (x : Device) l, (x.show l).alternate = x.alternate ∧ (x.show l).hidden = x.hidden := fun x l => by
    unfold Device.show; split <;> exact ⟨rfl, rfl⟩
  have early : (d.show [.complaint], Outcome.crashed) = (d', out) → d'.raw = d.raw ∧ (d.alternate = false → d'.alternate = false) ∧
      (d.hidden = false → d'.hidden = false) ∧ (out = .ended ∨ out = .crashed) := by
    intro h
    injection h with h1 h2
    subst h1 h2
    exact ⟨raw_show _ _, fun h => (still _ _).1.trans h, fun h => (still _ _).2.trans h, .inr rfl⟩
  unfold program at h
  split at h
  · exact early h
  · split at h
    · exact early h
    · split at h
      · exact fin _ _ _ (by simp [raw_show]) h
      · split at h
        · exact fin _ _ _ (by simp [raw_show]) h
        · split at h
          · exact fin _ _ _ (by simp [raw_show]) h
          · split at h
            · exact fin _ _ _ rfl h
            · dsimp only at h
              split at h
              · exact fin _ _ _ rfl h
              · split at h
                · cases h; exact absurd rfl ho
                · exact fin _ _ _ rfl h
                · exact fin _ _ _ rfl h

/-- C108: nothing that the program draws is written on the usual screen: what was there is there when it ends, and while it runs. -/
theorem C108_main {c : Chances} {d d' : Device} {files : List Str} {w h' : Nat} {t : Term T} {steps : List (RunStep × Fault)} {out : Outcome}
    (h : program o p parse errText c d files steps = (d', out)) (he : Entered c) (hu : c.unraw = true) (hl : c.leave = .all) (hs : c.size = some (w, h'))
    (ht : Term.new w h' files = .ok t) :
    d'.main = d.main ∧ (out = .running → d'.raw = true ∧ d'.alternate = true ∧ d'.hidden = true) := by
  rw [program_entered he hs ht] at h
  have hp := (play_written (o := o) (p := p) (parse := parse) (errText := errText) (r := Running.start t) (d := entered d) rfl steps).1
  generalize play o p parse errText (Running.start t) (entered d) steps = x at h hp
  obtain ⟨x, y⟩ := x
  obtain ⟨p1, p2, p3, p4⟩ := hp
  cases y
  · cases h; exact ⟨p4, fun _ => ⟨p1, p2, p3⟩⟩
  all_goals
    simp only at h
    rw [finish_left hu hl] at h
    injection h with h1 h2
    subst h1
    exact ⟨p4, fun h => by subst h; simp at h2⟩

/-- The same steps, with nothing that fails on the side of the terminal and of the log. -/
def spared (steps : List RunStep) : List (RunStep × Fault) := steps.map fun s => (s, .none)

theorem play_spared {r r' : Running T} {ds : List Draw} {d : Device} {steps : List RunStep}
    (h : r.run o p parse errText steps = .ok (r', ds)) (ha : d.alternate = true) :
    play o p parse errText r d (spared steps) =
      ({ d with alt := d.alt ++ ds.map .draw }, if r'.ended then .ended else .running) := by
  induction steps generalizing r d ds with
  | nil => cases h; simp [spared, play]
  | cons s ss ih =>
    obtain ⟨⟨r1, ds1⟩, h1, h⟩ := bind_inv h
    obtain ⟨⟨r2, ds2⟩, h2, h⟩ := bind_inv h
    cases h
    simp only [spared, List.map_cons, play]
    by_cases he : r.ended = true
    · have hr := (running_step h1).2.2.1 he
      obtain ⟨rfl, rfl⟩ := hr
      rw [if_pos he]
      have : ∀ {ss : List RunStep} {r' : Running T} {ds2 : List Draw}, r1.run o p parse errText ss = .ok (r', ds2) →
          r' = r1 ∧ ds2 = [] := by
        intro ss
        induction ss with
        | nil => intro r' ds2 h; cases h; exact ⟨rfl, rfl⟩
        | cons s ss ih' =>
          intro r' ds2 h
          obtain ⟨⟨q, e⟩, g1, h⟩ := bind_inv h
          obtain ⟨⟨q', e'⟩, g2, h⟩ := bind_inv h
          cases h
          obtain ⟨rfl, rfl⟩ := (running_step g1).2.2.1 he
          obtain ⟨rfl, rfl⟩ := ih' g2
          exact ⟨rfl, rfl⟩
      obtain ⟨rfl, rfl⟩ := this h2
      simp [he]
    · rw [if_neg he, if_neg (by simp)]
      simp only [h1]
      rw [show_alternate ha]
      have := ih (d := { d with alt := d.alt ++ ds1.map .draw }) h2 ha
      simp only [spared] at this
      rw [this]
      simp

/-- C108: while nothing fails, what is on the terminal is what the program of C91 draws, and the program ends when that one ends. -/
theorem C108_agrees {c : Chances} {d : Device} {files : List Str} {w h : Nat} {t : Term T} {r : Running T} {ds : List Draw}
    {steps : List RunStep} (he : Entered c) (hu : c.unraw = true) (hl : c.leave = .all) (hs : c.size = some (w, h))
    (ht : Term.new w h files = .ok t) (hr : (Running.start t).run o p parse errText steps = .ok (r, ds)) :
    program o p parse errText c d files (spared steps) =
      if r.ended then (⟨d.raw, false, false, d.main, ds.map .draw⟩, .ended)
      else (⟨true, true, true, d.main, ds.map .draw⟩, .running) := by
  rw [program_entered he hs ht, play_spared hr rfl]
  by_cases hb : r.ended = true
  · simp only [hb, if_pos]
    rw [finish_left hu hl]
    simp [entered]
  · simp only [hb]
    simp [entered]

/-- C108: when the program crashes in its main loop, or in another of its tasks, the text of the panic is the last thing that is
written on the alternate screen, which is left; nothing of it is on the screen that the user then sees. -/
theorem C108_reason_refuted {c : Chances} {d d' : Device} {files : List Str} {w h' : Nat} {t : Term T} {steps : List (RunStep × Fault)}
    (h : program o p parse errText c d files steps = (d', .crashed)) (he : Entered c) (hu : c.unraw = true) (hl : c.leave = .all) (hs : c.size = some (w, h'))
    (ht : Term.new w h' files = .ok t) :
    d'.alternate = false ∧ d'.main = d.main ∧ ∃ l, d'.alt = l ++ [.complaint] := by
  have hmain := (C108_main h he hu hl hs ht).1
  rw [program_entered he hs ht] at h
  have last : ∀ (steps : List (RunStep × Fault)) (r : Running T) (d : Device), d.alternate = true →
      (play o p parse errText r d steps).2 = .crashed → ∃ l, (play o p parse errText r d steps).1.alt = l ++ [.complaint] := by
    intro steps
    induction steps with
    | nil => intro r d _ h; simp only [play] at h; split at h <;> simp at h
    | cons s rest ih =>
      intro r d ha h
      obtain ⟨s, f⟩ := s
      simp only [play] at h ⊢
      split at h
      · simp at h
      · rename_i h1
        rw [if_neg h1]
        split at h
        · rename_i h2
          rw [if_pos h2, show_alternate ha]
          exact ⟨_, rfl⟩
        · rename_i h2
          rw [if_neg h2]
          split at h
          · rename_i hst
            simp only [hst]
            rw [show_alternate ha]
            exact ⟨_, rfl⟩
          · rename_i r' ds hst
            split at h
            · split at h
              · rename_i h3
                rw [if_pos h3]
                exact ih _ _ ha h
              · rename_i h3
                rw [if_neg h3, show_alternate ha, show_alternate (by exact ha)]
                exact ⟨_, rfl⟩
            · exact ih _ _ (by rw [show_alternate ha]; exact ha) h
  have hl' := last steps (Running.start t) (entered d) rfl
  have hab := (play_written (o := o) (p := p) (parse := parse) (errText := errText) (r := Running.start t) (d := entered d) rfl steps).2
  generalize play o p parse errText (Running.start t) (entered d) steps = x at h hl' hab
  obtain ⟨x, y⟩ := x
  cases y
  · cases h
  · dsimp only at h; rw [finish_left hu hl] at h; simp at h
  · dsimp only at h
    rw [finish_left hu hl] at h
    injection h with h1 h2
    subst h1
    obtain ⟨l, hl''⟩ := hl' rfl
    exact ⟨rfl, hmain, l, hl''⟩
  · exact absurd rfl hab

/-- C108, refuted for a directory in which `log.txt` cannot be opened: the program crashes before it has done anything; nothing
of the terminal changed, and its text is on the screen that is shown. -/
theorem C108_log_refuted {c : Chances} {d : Device} {files : List Str} {steps : List (RunStep × Fault)} (hl : c.log = false) :
    program o p parse errText c d files steps = (d.show [.complaint], .crashed) := by
  simp [program, hl]

/-- C108, refuted for a `log.txt` that can no longer be opened: the first key that is pressed then, the first line that the server
sends, or the first event that is treated, is a crash. -/
theorem C108_logged_refuted {r : Running T} {d : Device} {s : RunStep} {rest : List (RunStep × Fault)} (he : r.ended = false)
    (hs : s = .task .treat ∧ r.app.queue ≠ [] ∨ (∃ k, s = .task (.key k)) ∨ (∃ l, s = .task (.line l)) ∧ r.closed = false ∨
      s = .lost ∧ r.closed = false) :
    play o p parse errText r d ((s, .log) :: rest) = (d.show [.complaint], .crashed) := by
  have : logs r s = true := by
    rcases hs with ⟨rfl, h⟩ | ⟨k, rfl⟩ | ⟨⟨l, rfl⟩, h⟩ | ⟨rfl, h⟩
    · simpa [logs] using h
    · rfl
    · simp [logs, h]
    · simp [logs, h]
  simp [play, he, this]

/-- C108, refuted for a terminal that does not leave the raw mode: the alternate screen is not left and the cursor stays hidden,
although this was not tried; and a program that was crashing is aborted. -/
theorem C108_stuck_refuted {c : Chances} {d d' : Device} {files : List Str} {w h' : Nat} {t : Term T} {steps : List (RunStep × Fault)} {out : Outcome}
    (h : program o p parse errText c d files steps = (d', out)) (he : Entered c) (hu : c.unraw = false) (hs : c.size = some (w, h'))
    (ht : Term.new w h' files = .ok t) (ho : out ≠ .running) :
    d'.raw = true ∧ d'.alternate = true ∧ d'.hidden = true ∧ d'.main = d.main ∧ out ≠ .ended := by
  rw [program_entered he hs ht] at h
  have hp := (play_written (o := o) (p := p) (parse := parse) (errText := errText) (r := Running.start t) (d := entered d) rfl steps).1
  generalize play o p parse errText (Running.start t) (entered d) steps = x at h hp
  obtain ⟨x, y⟩ := x
  obtain ⟨p1, p2, p3, p4⟩ := hp
  cases y
  · cases h; exact absurd rfl ho
  all_goals
    simp only [finish, hu] at h
    simp only [Bool.false_eq_true, ↓reduceIte] at h
    injection h with h1 h2
    subst h1 h2
    rw [show_alternate p2]
    exact ⟨p1, p2, p3, p4, by simp⟩

/-- C108: when the terminal leaves the raw mode but then takes only some of the commands of the end, the mode is the one it had all
the same, the usual screen is shown if the first command was taken and the cursor if both were, and the program ends as it would
have; the complaint about it is on the screen that is shown. -/
theorem C108_half {c : Chances} {d d' : Device} {files : List Str} {w h' : Nat} {t : Term T} {steps : List (RunStep × Fault)}
    {out : Outcome} (h : program o p parse errText c d files steps = (d', out)) (he : Entered c) (hu : c.unraw = true) {n : Nat}
    (hl : c.leave = .cut n) (hs : c.size = some (w, h')) (ht : Term.new w h' files = .ok t) (ho : out ≠ .running) :
    d'.raw = d.raw ∧ (d'.alternate = true ↔ n = 0) ∧ (d'.hidden = true ↔ n ≤ 1) ∧
      out = (play o p parse errText (Running.start t) (entered d) steps).2 ∧
      (0 < n → d'.main = d.main ++ [.complaint]) ∧ (n = 0 → d'.main = d.main) := by
  rw [program_entered he hs ht] at h
  have hp := play_written (o := o) (p := p) (parse := parse) (errText := errText) (r := Running.start t) (d := entered d) rfl steps
  generalize play o p parse errText (Running.start t) (entered d) steps = x at h hp
  obtain ⟨x, y⟩ := x
  obtain ⟨⟨p1, p2, p3, p4⟩, p5⟩ := hp
  have q2 : x.alternate = true := p2
  have q3 : x.hidden = true := p3
  have q4 : x.main = d.main := p4
  cases y
  · cases h; exact absurd rfl ho
  case aborted => exact absurd rfl p5
  all_goals
    simp only [finish, hu, hl, if_true] at h
    injection h with h1 h2
    subst h1 h2
    match n with
    | 0 => simp [Device.show, q2, q3, q4]
    | 1 => simp [Device.show, ScreenCommand.run, q3, q4]
    | n + 2 => simp [Device.show, ScreenCommand.run, q4]

/-- C108: the program ends by itself only when the program of C91 has ended: after a key that leaves, or after the connection was
lost (C91_only). -/
theorem C108_ends {r : Running T} {d : Device} {steps : List (RunStep × Fault)}
    (h : (play o p parse errText r d steps).2 = .ended) :
    ∃ n r' ds, r.run o p parse errText ((steps.take n).map (·.1)) = .ok (r', ds) ∧ r'.ended = true := by
  induction steps generalizing r d with
  | nil =>
    simp only [play] at h
    split at h
    · rename_i he; exact ⟨0, r, [], rfl, he⟩
    · cases h
  | cons s rest ih =>
    obtain ⟨s, f⟩ := s
    simp only [play] at h
    split at h
    · rename_i he; exact ⟨0, r, [], rfl, he⟩
    · split at h
      · cases h
      · split at h
        · cases h
        · rename_i r1 ds1 hst
          have go : (∃ d', (play o p parse errText r1 d' rest).2 = .ended) →
              ∃ n r' ds, r.run o p parse errText ((((s, f) :: rest).take n).map (·.1)) = .ok (r', ds) ∧ r'.ended = true := by
            rintro ⟨d', h⟩
            obtain ⟨n, r', ds, h1, h2⟩ := ih h
            refine ⟨n + 1, r', ds1 ++ ds, ?_, h2⟩
            simp only [List.take_succ_cons, List.map_cons, Running.run, hst, bind, Except.bind]
            simp only [h1]
            rfl
          split at h
          · split at h
            · exact go ⟨_, h⟩
            · cases h
          · exact go ⟨_, h⟩

/-- C108: when the program ends by itself, its user pressed the leaving key, or the connection was lost. -/
theorem C108_why {c : Chances} {d d' : Device} {files : List Str} {w h' : Nat} {t : Term T} {steps : List (RunStep × Fault)}
    (h : program o p parse errText c d files steps = (d', .ended)) (he : Entered c) (hs : c.size = some (w, h'))
    (ht : Term.new w h' files = .ok t) :
    (∃ k ∈ pressedIn (tasksIn (steps.map (·.1))), LeavingKey k) ∨ .lost ∈ steps.map (·.1) := by
  rw [program_entered he hs ht] at h
  have hp : (play o p parse errText (Running.start t) (entered d) steps).2 = .ended := by
    generalize play o p parse errText (Running.start t) (entered d) steps = x at h
    obtain ⟨x, y⟩ := x
    cases y
    · cases h
    · rfl
    all_goals
      dsimp only at h
      unfold finish at h
      dsimp only at h
      split at h
      · cases h
      · cases h
  obtain ⟨n, r', ds, h1, h2⟩ := C108_ends hp
  have sub : (steps.take n).map (·.1) <+: steps.map (·.1) := by
    rw [List.map_take]
    exact List.take_prefix _ _
  rcases C91_only ht h1 h2 with ⟨k, k1, k2⟩ | ⟨h3, _⟩
  · refine .inl ⟨k, ?_, k2⟩
    obtain ⟨l, hl⟩ := sub
    rw [← hl]
    unfold tasksIn at k1 ⊢
    rw [List.filterMap_append]
    exact sublist_pressed (List.sublist_append_left _ _) k1
  · exact .inr (sub.subset h3)

/-- A terminal of 30 columns and 6 lines on whose usual screen there is a text, with a program that is told to edit a file. -/
def exampleProgram (c : Chances) (steps : List (RunStep × Fault)) : Device × Outcome :=
  program fragmentTexts bare JsonText.parse (fun l => l) c ⟨false, false, false, [.complaint], []⟩ [str!"f"] steps

/-- Everything works. -/
def fine : Chances := ⟨true, some (30, 6), true, true, .all, true, true, .all⟩

/-- C108_restored, C108_main, C108_agrees, C108_ends and C108_why apply: the user leaves. -/
example : Entered fine ∧
    (exampleProgram fine (spared [.task (.key ⟨.char 'q', false, true, false⟩), .write true])).1.alternate = true ∧
    (exampleProgram fine (spared [.task (.key ⟨.char 'q', false, true, false⟩), .write true])).2 = .running ∧
    exampleProgram fine (spared [.task (.key ⟨.char 'q', false, true, false⟩), .write true, .task .treat]) =
      (⟨false, false, false, [.complaint], []⟩, .ended) := ⟨⟨rfl, rfl, rfl, rfl, rfl, rfl⟩, by decide +kernel, by decide +kernel, by decide +kernel⟩
/-- C108_restored, C108_reason_refuted and C108_logged_refuted apply: a crash while it runs. -/
example : exampleProgram fine [(.task (.key ⟨.char 'j', false, false, false⟩), .none), (.task .treat, .log)] =
      (⟨false, false, false, [.complaint], [.complaint]⟩, .crashed) := by decide +kernel
/-- C108_restored applies to a crash at the beginning: the raw mode cannot be entered, or the size is not known. -/
example : exampleProgram { fine with raw := false } [] = (⟨false, false, false, [.complaint, .complaint], []⟩, .crashed) ∧
    exampleProgram { fine with size := none } [] = (⟨false, false, false, [.complaint, .complaint], []⟩, .crashed) ∧
    exampleProgram { fine with enter := .cut 1 } [] = (⟨false, false, false, [.complaint], [.complaint]⟩, .crashed) := by
  decide +kernel
/-- C108_log_refuted applies. -/
example : exampleProgram { fine with log := false } [] = (⟨false, false, false, [.complaint, .complaint], []⟩, .crashed) := by
  decide +kernel
/-- C108_half applies. -/
example : exampleProgram { fine with leave := .cut 1 } (spared [.lost, .task .treat]) =
    (⟨false, false, true, [.complaint, .complaint], []⟩, .ended) := by decide +kernel
/-- C108_stuck_refuted applies. -/
example : exampleProgram { fine with unraw := false } (spared [.lost, .task .treat]) =
      (⟨true, true, true, [.complaint], [.complaint]⟩, .crashed) ∧
    exampleProgram { fine with unraw := false } (spared [.broken]) =
      (⟨true, true, true, [.complaint], [.complaint, .complaint]⟩, .aborted) := by decide +kernel

end Ced.Props

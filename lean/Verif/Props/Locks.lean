import Verif.Spec.Locks

/-!
# Nothing ever waits for a lock (C104)
-/

namespace Ced.Props
open Spec Locks

/-- What may be done with some locks held: take another one, put something in a channel, wait. -/
structure Rule where
  take : List Lock → Lock → Bool
  tell : List Lock → Bool
  wait : List Lock → Bool

/-- Whether a program, begun with some locks held, keeps to a rule. -/
def sound (R : Rule) : List Lock → Prog → Bool
  | _, .skip => true
  | h, .tell => R.tell h
  | _, .write => true
  | h, .wait => R.wait h
  | h, .hold l p => R.take h l && sound R (l :: h) p
  | h, .seq p q => sound R h p && sound R h q
  | h, .alt p q => sound R h p && sound R h q
  | h, .many p => sound R h p

/-- What was done keeps to a rule. -/
def Right (R : Rule) : List Lock → List Act → Prop
  | _, [] => True
  | h, .take l :: as => R.take h l = true ∧ Right R (l :: h) as
  | h, .give l :: as => Right R (h.erase l) as
  | h, .tell :: as => R.tell h = true ∧ Right R h as
  | h, .wait :: as => R.wait h = true ∧ Right R h as
  | h, .write :: as => Right R h as

theorem held_append (as bs : List Act) (h : List Lock) : heldAfter (as ++ bs) h = heldAfter bs (heldAfter as h) := by
  induction as generalizing h with
  | nil => rfl
  | cons a as ih => cases a <;> exact ih _

theorem right_append {R : Rule} {as bs : List Act} {h : List Lock} :
    Right R h (as ++ bs) ↔ Right R h as ∧ Right R (heldAfter as h) bs := by
  induction as generalizing h with
  | nil => simp [Right, heldAfter]
  | cons a as ih => cases a <;> simp [Right, heldAfter, ih, and_assoc]

theorem sound_right {R : Rule} {p : Prog} {as : List Act} (hd : Does p as) :
    ∀ {h : List Lock}, sound R h p = true → Right R h as ∧ heldAfter as h = h := by
  induction hd with
  | skip => intro h _; exact ⟨trivial, rfl⟩
  | tell => intro h hs; exact ⟨⟨hs, trivial⟩, rfl⟩
  | write => intro h _; exact ⟨trivial, rfl⟩
  | wait => intro h hs; exact ⟨⟨hs, trivial⟩, rfl⟩
  | @hold l p as _ ih =>
    intro h hs
    simp only [sound, Bool.and_eq_true] at hs
    obtain ⟨h1, h2⟩ := ih hs.2
    constructor
    · show _ ∧ Right R (l :: h) (as ++ [.give l])
      exact ⟨hs.1, right_append.2 ⟨h1, trivial⟩⟩
    · show heldAfter (as ++ [.give l]) (l :: h) = h
      rw [held_append, h2]
      show (l :: h).erase l = h
      simp
  | @seq p q as bs _ _ ih1 ih2 =>
    intro h hs
    simp only [sound, Bool.and_eq_true] at hs
    obtain ⟨h1, h2⟩ := ih1 hs.1
    obtain ⟨h3, h4⟩ := ih2 hs.2
    exact ⟨right_append.2 ⟨h1, by rw [h2]; exact h3⟩, by rw [held_append, h2, h4]⟩
  | left _ ih => intro h hs; simp only [sound, Bool.and_eq_true] at hs; exact ih hs.1
  | right _ ih => intro h hs; simp only [sound, Bool.and_eq_true] at hs; exact ih hs.2
  | stop => intro h _; exact ⟨trivial, rfl⟩
  | @again p as bs _ _ ih1 ih2 =>
    intro h hs
    obtain ⟨h1, h2⟩ := ih1 (h := h) hs
    obtain ⟨h3, h4⟩ := ih2 (h := h) hs
    exact ⟨right_append.2 ⟨h1, by rw [h2]; exact h3⟩, by rw [held_append, h2, h4]⟩

theorem sound_begins {R : Rule} {p : Prog} (hs : sound R [] p = true) {as pre : List Act} (hd : Does p as) (hp : pre <+: as) :
    Right R [] pre := by
  obtain ⟨rest, rfl⟩ := hp
  exact (right_append.1 (sound_right hd hs).1).1

/-- No lock is taken twice, and none is held while waiting. -/
def careful : Rule where
  take h l := !h.contains l
  tell _ := true
  wait h := h.isEmpty

theorem careful_take {h : List Lock} {l : Lock} (hc : careful.take h l = true) : l ∉ h := by
  simpa [careful] using hc

theorem careful_wait {h : List Lock} (hc : careful.wait h = true) : h = [] := List.isEmpty_iff.1 hc

/-- C104, one task: no method of the editor, however it is called, takes a lock that its caller holds or that it holds itself; and when
it is finished nothing is held. -/
theorem C104_editor {as : List Act} (h : Does editorWork as) :
    (∀ pre l, pre ++ [.take l] <+: as → l ∉ heldAfter pre []) ∧ heldAfter as [] = [] := by
  have hs : sound careful [] editorWork = true := by decide
  refine ⟨fun pre l hp => ?_, (sound_right h hs).2⟩
  exact careful_take (right_append.1 (sound_begins hs h hp)).2.1

theorem doneBy_append (i : Nat) (a b : List (Nat × Act)) : doneBy i (a ++ b) = doneBy i a ++ doneBy i b := List.filterMap_append

/-- Tasks that take turns: whoever is not the last one to have done something holds nothing. -/
theorem others_hold {task : Nat → Prog} (hs : ∀ i, sound careful [] (task i) = true) {log : List (Nat × Act)} (ht : TakeTurns task log) :
    ∀ (pre : List (Nat × Act)), pre <+: log → ∀ i, heldAfter (doneBy i pre) [] ≠ [] → ∃ p a, pre = p ++ [(i, a)] := by
  intro pre
  induction hn : pre.length generalizing pre with
  | zero =>
    intro _ i hi
    rw [List.length_eq_zero_iff.1 hn] at hi
    exact absurd rfl hi
  | succ n ih =>
    intro hp i hi
    rcases List.eq_nil_or_concat pre with rfl | ⟨p, ⟨j, a⟩, rfl⟩
    · cases hn
    · rw [List.concat_eq_append] at *
      by_cases hj : j = i
      · subst hj; exact ⟨p, a, rfl⟩
      · have hx : doneBy i (p ++ [(j, a)]) = doneBy i p := by
          rw [doneBy_append]; simp [doneBy, hj]
        rw [hx] at hi
        obtain ⟨q, b, rfl⟩ := ih p (by simp at hn; exact hn) (List.IsPrefix.trans (List.prefix_append _ _) hp) i hi
        obtain ⟨post, hpost⟩ := hp
        have hb := ht.turns q i b j a post (by rw [← hpost]; simp) (fun h => hj h.symm)
        subst hb
        obtain ⟨as, hd, hpre⟩ := ht.does i
        have hr : Right careful [] (doneBy i (q ++ [(i, .wait)])) := by
          refine sound_begins (hs i) hd (List.IsPrefix.trans ?_ hpre)
          rw [← hpost, doneBy_append _ (q ++ [(i, Act.wait)] ++ [(j, a)]), doneBy_append _ (q ++ [(i, Act.wait)])]
          rw [List.append_assoc]
          exact List.prefix_append _ _
        rw [doneBy_append] at hr hi
        have h1 : doneBy i [(i, Act.wait)] = [.wait] := by simp [doneBy]
        rw [h1] at hr hi
        rw [held_append] at hi
        exact absurd (careful_wait (right_append.1 hr).2.1) hi

theorem nobody_holds {task : Nat → Prog} (hs : ∀ i, sound careful [] (task i) = true) {log : List (Nat × Act)} (ht : TakeTurns task log)
    {pre : List (Nat × Act)} {j : Nat} {l : Lock} (hp : pre ++ [(j, .take l)] <+: log) (i : Nat) : l ∉ heldAfter (doneBy i pre) [] := by
  intro hl
  by_cases hij : i = j
  · subst hij
    obtain ⟨as, hd, hpre⟩ := ht.does i
    obtain ⟨post, hpost⟩ := hp
    have hr : Right careful [] (doneBy i pre ++ [.take l]) := by
      refine sound_begins (hs i) hd (List.IsPrefix.trans ?_ hpre)
      rw [← hpost, doneBy_append _ (pre ++ [(i, Act.take l)]), doneBy_append]
      simp only [doneBy, List.filterMap_cons, if_pos, List.filterMap_nil]
      exact List.prefix_append _ _
    exact careful_take (right_append.1 hr).2.1 hl
  · obtain ⟨q, b, rfl⟩ := others_hold hs ht pre (List.IsPrefix.trans (List.prefix_append _ _) hp) i (fun h => by rw [h] at hl; cases hl)
    obtain ⟨post, hpost⟩ := hp
    have hb := ht.turns q i b j (.take l) post (by rw [← hpost]; simp) hij
    subst hb
    obtain ⟨as, hd, hpre⟩ := ht.does i
    have hr : Right careful [] (doneBy i (q ++ [(i, .wait)])) := by
      refine sound_begins (hs i) hd (List.IsPrefix.trans ?_ hpre)
      rw [← hpost, doneBy_append _ (q ++ [(i, Act.wait)] ++ [(j, Act.take l)]), doneBy_append _ (q ++ [(i, Act.wait)]), List.append_assoc]
      exact List.prefix_append _ _
    rw [doneBy_append] at hr hl
    have h1 : doneBy i [(i, Act.wait)] = [.wait] := by simp [doneBy]
    rw [h1] at hr hl
    rw [held_append] at hl
    have := careful_wait (right_append.1 hr).2.1
    have hl : l ∈ heldAfter (doneBy i q) [] := hl
    rw [this] at hl
    cases hl

/-- C104, the server: in every order in which its tasks (the events, the broadcasts, any number of readers) take turns, whenever one
of them takes a lock nobody holds it, neither itself nor another one: it never has to wait for a lock. -/
theorem C104_server {log : List (Nat × Act)} (ht : TakeTurns serverTask log) {pre : List (Nat × Act)} {j : Nat} {l : Lock}
    (hp : pre ++ [(j, .take l)] <+: log) (i : Nat) : l ∉ heldAfter (doneBy i pre) [] := by
  refine nobody_holds (fun i => ?_) ht hp i
  match i with
  | 0 => decide
  | 1 => decide
  | _ + 2 => exact (by decide : sound careful [] reader = true)

/-- C104, the terminal: the same of its tasks. -/
theorem C104_terminal {log : List (Nat × Act)} (ht : TakeTurns terminalTask log) {pre : List (Nat × Act)} {j : Nat} {l : Lock}
    (hp : pre ++ [(j, .take l)] <+: log) (i : Nat) : l ∉ heldAfter (doneBy i pre) [] := by
  refine nobody_holds (fun i => ?_) ht hp i
  match i with
  | 0 => decide
  | 1 => decide
  | _ + 2 => exact (by decide : sound careful [] reader = true)

/-! ## The standalone editor: two threads -/

/-- The main thread never waits for the printing thread with the standard output held. -/
def mainRule : Rule where
  take h l := !h.contains l
  tell h := !h.contains .stdout
  wait _ := false

/-- The printing thread only takes the standard output, and waits for nothing with it held. -/
def printerRule : Rule where
  take h l := h.isEmpty && decide (l = .stdout)
  tell _ := false
  wait h := h.isEmpty

/-- C104, the standalone editor: wherever its two threads are, with any number of notifications in the channel, of room for some: one of
them can do what it does next. -/
theorem C104_standalone {as bs pre pre' : List Act} {a b : Act} (hm : Does standaloneMain as) (hp : Does standalonePrinter bs)
    (ha : pre ++ [a] <+: as) (hb : pre' ++ [b] <+: bs) {room waiting : Nat} (hroom : 0 < room) :
    ¬ (Stuck room waiting (heldAfter pre []) (heldAfter pre' []) a ∧ Stuck room waiting (heldAfter pre' []) (heldAfter pre []) b) := by
  have h1 := (right_append.1 (sound_begins (R := mainRule) (by decide) hm ha)).2
  have h2 := (right_append.1 (sound_begins (R := printerRule) (by decide) hp hb)).2
  rintro ⟨s1, s2⟩
  have other : ∀ l, b = .take l → l = .stdout ∧ heldAfter pre' [] = [] := by
    rintro l rfl
    have := h2.1
    simp only [printerRule, Bool.and_eq_true, List.isEmpty_iff, decide_eq_true_eq] at this
    exact ⟨this.2, this.1⟩
  have waits : b = .wait → heldAfter pre' [] = [] := by
    rintro rfl
    exact List.isEmpty_iff.1 h2.1
  have free : heldAfter pre' [] = [] := by
    cases b with
    | take l => exact (other l rfl).2
    | wait => exact waits rfl
    | tell => exact absurd h2.1 (by simp [printerRule])
    | give l => cases s2
    | write => cases s2
  cases a with
  | take l =>
    have := h1.1
    simp only [mainRule, Bool.not_eq_true', List.contains_eq_mem, decide_eq_false_iff_not] at this
    rcases s1 with s1 | s1
    · exact this s1
    · rw [free] at s1; cases s1
  | tell =>
    have hno := h1.1
    simp only [mainRule, Bool.not_eq_true', List.contains_eq_mem, decide_eq_false_iff_not] at hno
    cases b with
    | take l =>
      obtain ⟨rfl, _⟩ := other l rfl
      rcases s2 with s2 | s2
      · rw [free] at s2; cases s2
      · exact hno s2
    | wait =>
      have e1 : room ≤ waiting := s1
      have e2 : waiting = 0 := s2
      omega
    | tell => exact absurd h2.1 (by simp [printerRule])
    | give l => cases s2
    | write => cases s2
  | wait => exact absurd h1.1 (by simp [mainRule])
  | give l => cases s1
  | write => cases s1

/-! ## Examples -/

/-- a program that would wait for itself: one that calls a method from within a statement that holds the state -/
example : sound careful [] (.hold .state debug) = false ∧ ∃ as, Does (.hold .state debug) as ∧
    ∃ pre l, pre ++ [.take l] <+: as ∧ l ∈ heldAfter pre [] := by
  refine ⟨by decide, _, .hold (.right (.seq (.hold .skip) (.seq (.left (.hold .skip)) (.seq (.seq (.hold .skip) (.seq (.left .skip) .skip))
    (.seq (.hold .stop) .skip))))), [.take .state], .state, ?_, by decide⟩
  exact ⟨_, rfl⟩

/-- an edit that notifies another client: the hypotheses of `C104_editor` are met by the locks it takes -/
example : ∃ as, Does editorWork as ∧ [.take .state, .give .state, .take .state, .tell, .tell, .give .state] <+: as := by
  refine ⟨_, .again (.right (.right (.right (.right (.right (.right (.right (.right (.right (.right (.right (.right (.right (.right (.right
    (.left (.seq (.hold .skip) (.seq (.right (.hold (.again .tell (.again .tell .stop)))) .skip)))))))))))))))))) .stop, ?_⟩
  exact ⟨_, rfl⟩

/-- the two tasks of a server take turns: the broadcasts are written while the event loop waits -/
example : TakeTurns serverTask [(0, .wait), (1, .wait), (1, .take .index), (1, .write), (1, .give .index), (1, .wait),
    (0, .take .index), (0, .give .index)] := by
  constructor
  · intro i
    match i with
    | 0 =>
      refine ⟨_, .seq .stop (.seq (.again (.seq .wait (.seq (.seq (.left (.seq (.hold .skip) (.seq .stop .skip)))
        (.seq .stop (.seq (.hold .skip) .skip))) .skip)) .stop) (.seq .wait .skip)), ?_⟩
      exact ⟨_, rfl⟩
    | 1 =>
      refine ⟨_, .seq (.again (.seq .wait (.seq (.hold (.again .write .stop)) .skip)) .stop) (.seq .wait .skip), ?_⟩
      exact ⟨_, rfl⟩
    | n + 2 =>
      refine ⟨_, .seq .stop (.seq .wait .skip), ?_⟩
      simp [doneBy]
  · intro pre i a j b post h hij
    rcases pre with _ | ⟨_, _ | ⟨_, _ | ⟨_, _ | ⟨_, _ | ⟨_, _ | ⟨_, _ | ⟨_, _ | ⟨_, pre⟩⟩⟩⟩⟩⟩⟩⟩ <;> simp at h <;> grind

/-- the threads of a standalone editor, while the main thread sends with the state held and the other one waits for a notification -/
example : ∃ as bs, Does standaloneMain as ∧ Does standalonePrinter bs ∧ [.take .state, .give .state, .take .state] ++ [.tell] <+: as ∧
    [.wait, .take .stdout, .give .stdout] ++ [.wait] <+: bs := by
  refine ⟨_, _, .seq (.again (.right (.right (.right (.right (.right (.right (.right (.right (.right (.right (.right (.right (.right (.right
    (.right (.left (.seq (.hold .skip) (.seq (.right (.hold (.again .tell .stop))) .skip)))))))))))))))))) .stop) (.seq .stop (.seq .stop .skip)),
    .again (.seq .wait (.seq (.right (.hold .skip)) .skip)) (.again (.seq .wait (.seq (.left .skip) .skip)) .stop), ?_, ?_⟩
  · exact ⟨_, rfl⟩
  · exact ⟨_, rfl⟩

end Ced.Props

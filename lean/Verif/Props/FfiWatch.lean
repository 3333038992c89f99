import Verif.Model.FfiWatch
import Verif.Props.Ffi
import Verif.Props.CommandLine
import Verif.Props.Private

/-! # C94: a C program that watches a session -/

namespace Ced.Props
open Ced Ced.Spec Ced.Ffi CommandLine SessionName
variable {T : Type} {o : Ornament T} {parse : Str → Option Json} {frags : T → List Fragment}

/-! ## The connection it gets -/

/-- C94 (creation): a program that asks for a connection to a session (its argument, or the number of the process if the
argument is not UTF-8) gets null exactly when the session is a socket that does not exist and no server can be started
for it; else it is connected to that session, after a server was started for it exactly when the socket did not exist,
and no event has arrived.  It gets no answer (the process aborts) only when there is no such session or no server
accepts. -/
theorem C94_created {s : Surroundings} (us : UsualMachine s) (name : Option Str) (spawns : Bool) (accepts : Mode → Bool)
    (r : Created T) :
    create s name spawns accepts = .ok r ↔ ∃ m c, SessionAt s (name.getD (natStr s.pid)) m ∧ OnDemand s m c ∧
      ((r = .null ∧ spawns = false ∧ c ≠ none) ∨
        (r = .connected c m ⟨.new, true, [], true⟩ ∧ (c ≠ none → spawns = true) ∧ accepts m = true)) := by
  have hs : ∀ m, sessionAsked s name = .ok m ↔ SessionAt s (name.getD (natStr s.pid)) m := by
    intro m
    cases name with
    | some n => exact C89_session us n m
    | none => exact C89_session us (natStr s.pid) m
  constructor
  · intro h
    unfold create at h
    obtain ⟨m, h1, h⟩ := bind_inv h
    obtain ⟨c, h2, h⟩ := bind_inv h
    refine ⟨m, c, (hs m).1 h1, ensure_iff.1 h2, ?_⟩
    split at h
    · rename_i hc
      cases h
      simp only [Bool.and_eq_true, Bool.not_eq_true'] at hc
      exact .inl ⟨rfl, hc.2, fun e => by rw [e] at hc; cases hc.1⟩
    · rename_i hc
      split at h
      · rename_i ha
        cases h
        refine .inr ⟨rfl, fun e => ?_, ha⟩
        cases c with
        | none => exact absurd rfl e
        | some c => simpa using hc
      · cases h
  · rintro ⟨m, c, h1, h2, h⟩
    have e1 := (hs m).2 h1
    have e2 := ensure_iff.2 h2
    unfold create
    rw [e1]
    show (do let child ← ensureSession s m; _ : R (Created T)) = _
    rw [e2]
    show (if c.isSome && !spawns then _ else if accepts m then _ else _ : R (Created T)) = _
    rcases h with ⟨rfl, hsp, hc⟩ | ⟨rfl, hsp, ha⟩
    · cases c with
      | none => exact absurd rfl hc
      | some c => subst hsp; rfl
    · rw [if_neg, if_pos ha]
      · rfl
      · cases c with
        | none => simp
        | some c => simp [hsp (by simp)]

/-! ## The events it gets -/

/-- The events that some lines give, read one after the other by a new connection. -/
def lineEvents (o : Ornament T) (parse : Str → Option Json) : Connection T → List Str → List (ConnectionEvent T)
  | _, [] => []
  | c, l :: ls => (c.receive o parse l).2 :: lineEvents o parse (c.receive o parse l).1 ls

/-- The lines that arrived before the end of the connection. -/
def linesRead (steps : List WatchStep) : List Str :=
  (steps.takeWhile fun x => x ≠ .ended).filterMap fun x => match x with | .line l => some l | _ => none

theorem lineEvents_append (c : Connection T) (a b : List Str) :
    lineEvents o parse c (a ++ b) =
      lineEvents o parse c a ++ lineEvents o parse (a.foldl (fun c l => (c.receive o parse l).1) c) b := by
  induction a generalizing c with
  | nil => rfl
  | cons l a ih => simp [lineEvents, ih]

theorem lineEvents_length (c : Connection T) (a : List Str) : (lineEvents o parse c a).length = a.length := by
  induction a generalizing c with
  | nil => rfl
  | cons l a ih => simp [lineEvents, ih]

/-- the events still to come out of a state when these lines come in -/
theorem watch_run {steps : List WatchStep} (hd : WatchStep.destroy ∉ steps) {w w' : Watch T} {outs : List (Option (Event T))}
    (hh : w.held = true) (h : w.run o parse frags steps = .ok (w', outs)) :
    w'.held = true ∧ ∃ got, got ++ w'.queue = w.queue ++ (if w.reading then lineEvents o parse w.conn (linesRead steps) else []) ∧
      List.Forall₂ (fun e out => Event.ofConnection frags e = .ok out) got (outs.filterMap id) := by
  induction steps generalizing w outs with
  | nil => cases h; exact ⟨hh, [], by simp [linesRead, lineEvents], .nil⟩
  | cons x steps ih =>
    have hd' : WatchStep.destroy ∉ steps := fun h => hd (List.mem_cons_of_mem _ h)
    rw [Watch.run] at h
    obtain ⟨⟨w1, a⟩, h1, h⟩ := bind_inv h
    obtain ⟨⟨w2, b⟩, h2, h⟩ := bind_inv h
    cases h
    cases x with
    | destroy => exact absurd (List.mem_cons_self ..) hd
    | ended =>
      cases h1
      obtain ⟨k1, got, k2, k3⟩ := ih hd' (w := { w with reading := false }) hh h2
      refine ⟨k1, got, ?_, k3⟩
      rw [k2]
      simp [linesRead, lineEvents]
    | line l =>
      cases h1
      have hh' : (w.read o parse l).held = true := by unfold Watch.read; split <;> exact hh
      obtain ⟨k1, got, k2, k3⟩ := ih hd' hh' h2
      refine ⟨k1, got, ?_, k3⟩
      rw [k2]
      unfold Watch.read
      cases hr : w.reading with
      | false => simp [hr]
      | true =>
        have e : linesRead (WatchStep.line l :: steps) = l :: linesRead steps := by simp [linesRead]
        simp [hh, hr, e, lineEvents]
    | next =>
      obtain ⟨⟨w3, e⟩, h3, h1⟩ := bind_inv h1
      cases h1
      have el : linesRead (WatchStep.next :: steps) = linesRead steps := by simp [linesRead]
      rw [el]
      unfold Watch.next at h3
      rw [if_pos hh] at h3
      split at h3
      · cases h3
        obtain ⟨k1, got, k2, k3⟩ := ih hd' hh h2
        exact ⟨k1, got, k2, k3⟩
      · rename_i ev queue hq
        obtain ⟨e1, h4, h3⟩ := bind_inv h3
        cases h3
        obtain ⟨k1, got, k2, k3⟩ := ih hd' (w := { w with queue := queue }) hh h2
        refine ⟨k1, ev :: got, ?_, .cons h4 k3⟩
        rw [List.cons_append, k2, hq]
        rfl

/-- C94 (order): whatever the order in which lines arrive and the program asks for events, the events it got, followed by
those that wait, are those of the lines that arrived, in order: none is lost, none comes twice. -/
theorem C94_order {steps : List WatchStep} (hd : WatchStep.destroy ∉ steps) {w : Watch T} {outs : List (Option (Event T))}
    (h : (Watch.new : Watch T).run o parse frags steps = .ok (w, outs)) :
    ∃ got, got ++ w.queue = lineEvents o parse .new (linesRead steps) ∧
      List.Forall₂ (fun e out => Event.ofConnection frags e = .ok out) got (outs.filterMap id) :=
  (watch_run hd rfl h).2

theorem forall2_len {α β : Type} {P : α → β → Prop} {a : List α} {b : List β} (h : List.Forall₂ P a b) : a.length = b.length := by
  induction h with
  | nil => rfl
  | cons _ _ ih => simp [ih]

/-- C94 (null): the program gets null exactly when it has got the events of all lines that arrived. -/
theorem C94_null {steps : List WatchStep} (hd : WatchStep.destroy ∉ steps) {w : Watch T} {outs : List (Option (Event T))}
    (h : (Watch.new : Watch T).run o parse frags steps = .ok (w, outs)) :
    (∃ w', w.next frags = .ok (w', none)) ↔ (outs.filterMap id).length = (linesRead steps).length := by
  obtain ⟨hh, got, e, hf⟩ := watch_run hd rfl h
  have e : got ++ w.queue = lineEvents o parse .new (linesRead steps) := e
  have hl := congrArg List.length e
  rw [List.length_append, lineEvents_length, forall2_len hf] at hl
  unfold Watch.next
  rw [if_pos hh]
  cases hq : w.queue with
  | nil =>
    rw [hq] at hl
    simp only [List.length_nil, Nat.add_zero] at hl
    exact ⟨fun _ => hl, fun _ => ⟨w, rfl⟩⟩
  | cons ev q =>
    rw [hq] at hl
    simp only [List.length_cons] at hl
    refine ⟨fun ⟨w', h⟩ => ?_, fun h => by omega⟩
    obtain ⟨e1, _, h⟩ := bind_inv h
    cases h

/-- a program whose events can all be shown does not abort -/
theorem watch_total {steps : List WatchStep} (hd : WatchStep.destroy ∉ steps) {w : Watch T} (hh : w.held = true)
    (hq : ∀ e ∈ w.queue ++ (if w.reading then lineEvents o parse w.conn (linesRead steps) else []),
      ∃ out, Event.ofConnection frags e = .ok out) :
    ∃ r, w.run o parse frags steps = .ok r := by
  induction steps generalizing w with
  | nil => exact ⟨_, rfl⟩
  | cons x steps ih =>
    have hd' : WatchStep.destroy ∉ steps := fun h => hd (List.mem_cons_of_mem _ h)
    cases x with
    | destroy => exact absurd (List.mem_cons_self ..) hd
    | ended =>
      obtain ⟨r, hr⟩ := ih hd' (w := { w with reading := false }) hh (by
        intro e he; refine hq e ?_; simp at he; simp [he])
      exact ⟨(r.1, [] ++ r.2), by rw [Watch.run]; show (do let (w, b) ← Watch.run o parse frags { w with reading := false } steps; _) = _; rw [hr]; rfl⟩
    | line l =>
      have hh' : (w.read o parse l).held = true := by unfold Watch.read; split <;> exact hh
      obtain ⟨r, hr⟩ := ih hd' (w := w.read o parse l) hh' (by
        intro e he
        refine hq e ?_
        have el : linesRead (WatchStep.line l :: steps) = l :: linesRead steps := by simp [linesRead]
        rw [el]
        unfold Watch.read at he
        cases hrd : w.reading with
        | false => simpa [hrd] using he
        | true => simpa [hrd, hh, lineEvents] using he)
      exact ⟨(r.1, [] ++ r.2), by rw [Watch.run]; show (do let (w, b) ← Watch.run o parse frags (w.read o parse l) steps; _) = _; rw [hr]; rfl⟩
    | next =>
      have el : linesRead (WatchStep.next :: steps) = linesRead steps := by simp [linesRead]
      rw [el] at hq
      cases hqu : w.queue with
      | nil =>
        obtain ⟨r, hr⟩ := ih hd' hh hq
        refine ⟨(r.1, [none] ++ r.2), ?_⟩
        rw [Watch.run]
        have : w.step o parse frags .next = .ok (w, [none]) := by
          unfold Watch.step Watch.next; rw [if_pos hh, hqu]; rfl
        rw [this]
        show (do let (w, b) ← Watch.run o parse frags w steps; _) = _
        rw [hr]; rfl
      | cons ev q =>
        obtain ⟨out, ho⟩ := hq ev (by rw [hqu]; simp)
        obtain ⟨r, hr⟩ := ih hd' (w := { w with queue := q }) hh (by
          intro e he; refine hq e ?_; rw [hqu]; simp at he; simp [he])
        refine ⟨(r.1, [some out] ++ r.2), ?_⟩
        rw [Watch.run]
        have : w.step o parse frags .next = .ok ({ w with queue := q }, [some out]) := by
          unfold Watch.step Watch.next; rw [if_pos hh, hqu]
          dsimp only
          rw [ho]; rfl
        rw [this]
        show (do let (w, b) ← Watch.run o parse frags { w with queue := q } steps; _) = _
        rw [hr]; rfl

/-! ## From the server to the program -/

theorem events_of_notes (ho : OrnamentOk o) (hp : JsonText.ReadsBack parse) {ns : List Note} (hf : ∀ n ∈ ns, Spec.Fits n)
    (c : Connection T) :
    lineEvents o parse c (ns.map fun n => ((Wire.note n).encode o).write) = ns.map (noteEvent o) := by
  induction ns generalizing c with
  | nil => rfl
  | cons n ns ih =>
    have hn : Spec.Fits n := hf n (List.mem_cons_self ..)
    simp only [List.map_cons, lineEvents]
    rw [receive_event ho hp hn, ih fun x hx => hf x (List.mem_cons_of_mem _ hx)]

theorem wires_notes {c : Nat} {written : List (Nat × Wire)} (h : ∀ x, (c, Wire.response x) ∉ written) :
    wiresTo c written = (notesTo c written).map Wire.note := by
  induction written with
  | nil => rfl
  | cons x l ih =>
    have ih := ih fun y hy => h y (List.mem_cons_of_mem _ hy)
    obtain ⟨d, wr⟩ := x
    unfold wiresTo notesTo at *
    by_cases hd : d = c
    · subst hd
      cases wr with
      | response r => exact absurd (List.mem_cons_self ..) (h r)
      | note n => simp [ih]
    · cases wr with
      | response r => simp [hd, ih]
      | note n => simp [hd, ih]

theorem natStr_cstr (n : Nat) : CStr (natStr n) := by
  exact natStr_free (by decide)

/-- a client that only watches gets notifications of kinds the C library has -/
theorem silent_showable {c : Nat} {session : Str} {cwd : Path} (hz : CStr session) {n : Note}
    (h : n ∈ greeting c session cwd ∨ ∃ items, n = .view items) :
    ∃ out, Event.ofConnection frags (noteEvent o n) = .ok out := by
  rcases h with h | ⟨items, rfl⟩
  · simp only [greeting, List.mem_cons, List.not_mem_nil, or_false] at h
    rcases h with rfl | rfl
    · refine ⟨.info (natStr c) session, ?_⟩
      show (do let a ← cstring (natStr c); let b ← cstring session; return Event.info a b : R (Event T)) = _
      rw [cstring_ok (natStr_cstr c), cstring_ok hz]
      rfl
    · exact ⟨_, rfl⟩
  · exact ⟨_, rfl⟩

/-- C94, end to end: a C program connected to a session of ced, which never sends anything, gets from its events, however
it asks for them and whatever the other clients do, what the server wrote to it, in order, with nothing lost: its name and
that of the session, its status line, and the views it is shown; it never aborts if the name of the session has no zero
byte; and it reads the whole content of each event, within the limits of C70. -/
theorem C94_watch (ho : OrnamentOk o) (hp : JsonText.ReadsBack parse) {eng : LuaEngine} {env : EditorEnv LuaState}
    {session : Str} {cwd : Path} {args cwdText : Str} {e : Ced.Editor LuaState}
    (hn : Ced.Editor.new env ⟨session, []⟩ (Scripts.prelude eng) session cwd args cwdText = .ok e) (hz : CStr session)
    {steps : List (Server.Step LuaState)} {c : Nat} (hl : CedSteps steps)
    (hq : ∀ env wr line, Server.Step.event env wr (.message c line) ∉ steps) (hj : joinsOf c steps ≤ 1)
    {s' : Server LuaState} {r : Option (List (Server.Step LuaState))} (h : (Server.start e).loop steps = .ok (s', r))
    (hf : ∀ n ∈ notesTo c s'.written, Spec.Fits n) {prog : List WatchStep} (hd : WatchStep.destroy ∉ prog)
    (hread : linesRead prog <+: readLines ((wiresTo c s'.written).flatMap fun w => frame (w.encode o))) :
    ∃ w outs got, (Watch.new : Watch T).run o parse frags prog = .ok (w, outs) ∧ got <+: notesTo c s'.written ∧
      List.Forall₂ (fun n out => Event.ofConnection frags (noteEvent o n) = .ok out ∧
        ∀ k, Showable frags k (noteEvent o n) → readEvent frags k out = .ok (textsOf frags (noteEvent o n)))
        got (outs.filterMap id) ∧
      (∃ cwd, (nonViews got).Sublist (greeting c session cwd)) ∧
      ((∃ w', w.next frags = .ok (w', none)) ↔ got.length = (linesRead prog).length) := by
  obtain ⟨hres, cwd', hsub⟩ := C93_silent hn hl hq hj h
  have e1 : ((wiresTo c s'.written).flatMap fun w => frame (w.encode o)) =
      ((notesTo c s'.written).map fun n => (Wire.note n).encode o).flatMap frame := by
    rw [wires_notes hres, List.flatMap_map, List.flatMap_map]
  rw [e1, C62_framing, List.map_map] at hread
  obtain ⟨ns, hns, e2⟩ : ∃ ns, ns <+: notesTo c s'.written ∧
      linesRead prog = ns.map fun n => ((Wire.note n).encode o).write := by
    obtain ⟨t, ht⟩ := hread
    refine ⟨(notesTo c s'.written).take (linesRead prog).length, List.take_prefix _ _, ?_⟩
    have ht : linesRead prog ++ t = (notesTo c s'.written).map fun n => ((Wire.note n).encode o).write := ht
    rw [List.map_take, ← ht, List.take_left]
  have hf' : ∀ n ∈ ns, Spec.Fits n := fun n hm => hf n (hns.subset hm)
  have e3 : lineEvents o parse .new (linesRead prog) = ns.map (noteEvent o) := by
    rw [e2]; exact events_of_notes ho hp hf' _
  have kind : ∀ n ∈ ns, n ∈ greeting c session cwd' ∨ ∃ items, n = .view items := by
    intro n hm
    by_cases hv : ∃ items, n = .view items
    · exact .inr hv
    · refine .inl (hsub.subset (List.mem_filter.2 ⟨hns.subset hm, ?_⟩))
      cases n <;> first | rfl | exact absurd ⟨_, rfl⟩ hv
  have tot : ∃ r, (Watch.new : Watch T).run o parse frags prog = .ok r := by
    refine watch_total hd rfl ?_
    intro ev hev
    have hev : ev ∈ lineEvents o parse .new (linesRead prog) := hev
    rw [e3] at hev
    obtain ⟨n, hm, rfl⟩ := List.mem_map.1 hev
    exact silent_showable hz (kind n hm)
  obtain ⟨⟨w, outs⟩, hrun⟩ := tot
  obtain ⟨got, hg, hall⟩ := C94_order hd hrun
  rw [e3] at hg
  have hgot : got = (ns.take got.length).map (noteEvent o) := by
    rw [List.map_take, ← hg, List.take_left]
  refine ⟨w, outs, ns.take got.length, hrun, (List.take_prefix _ _).trans hns, ?_, ⟨cwd', ?_⟩, ?_⟩
  · have : ∀ {l : List Note} {outs : List (Event T)},
        List.Forall₂ (fun e out => Event.ofConnection frags e = .ok out) (l.map (noteEvent o)) outs →
        List.Forall₂ (fun n out => Event.ofConnection frags (noteEvent o n) = .ok out ∧
          ∀ k, Showable frags k (noteEvent o n) → readEvent frags k out = .ok (textsOf frags (noteEvent o n))) l outs := by
      intro l
      induction l with
      | nil => intro outs h; cases h; exact .nil
      | cons n l ih =>
        intro outs h
        cases h with
        | cons h1 h2 =>
          refine .cons ⟨h1, fun k hk => ?_⟩ (ih h2)
          obtain ⟨x, hx, hy⟩ := C70_content frags k hk
          rw [h1] at hx
          cases hx
          exact hy
    rw [hgot] at hall
    exact this hall
  · exact ((((List.take_prefix _ _).trans hns).sublist).filter _).trans hsub
  · rw [C94_null hd hrun, ← forall2_len hall]
    have : got.length ≤ ns.length := by
      have := congrArg List.length hg
      rw [List.length_append, List.length_map] at this
      omega
    rw [List.length_take, Nat.min_eq_left this]

/-- the fragments of a text of the examples, with the names of their faces -/
def namedFrags (t : List (Str × Face)) : List Fragment := t.map fun f => (f.1, faceName f.2)

/-- A program that reads these lines, asking for an event after each, and twice more after the end. -/
def watchProgram (lines : List Str) : List WatchStep :=
  lines.flatMap (fun l => [.line l, .next]) ++ [.ended, .next, .next]

/-- What kind of event it is. -/
def eventKind : Option (Event (List (Str × Face))) → Str
  | none => str!"null"
  | some (.echo _) => str!"echo"
  | some (.info c s) => str!"info " ++ c ++ str!" " ++ s
  | some (.menu _ _ _ _ _) => str!"menu"
  | some (.status _) => str!"status"
  | some (.view _) => str!"view"

/-- What the second client of the example of C93 gets, if it is a C program. -/
def watchedEvents : Option (List Str) :=
  (startCed.bind fun s => s.loop watchedSteps).toOption.bind fun x =>
    ((Watch.new : Watch (List (Str × Face))).run fragmentTexts JsonText.parse namedFrags (watchProgram
      (readLines ((wiresTo 2 x.1.written).flatMap fun w => frame (w.encode fragmentTexts))))).toOption.map
      fun r => r.2.map eventKind

example : watchedEvents = some [str!"view", str!"info 2 s", str!"status", str!"view", str!"null", str!"null"] := by
  decide +kernel

/-- a new session, an old one, an argument that is not UTF-8; no process can be started; nobody accepts -/
example : ∃ c, (create machineA (some str!"new") true (fun _ => true) : R (Created Nat)) =
    .ok (.connected (some c) (.socket str!"/tmp/ced-me/new") .new) :=
  ⟨_, (C94_created machineA_usual (T := Nat) (some str!"new") true (fun _ => true) _).2 ⟨.socket str!"/tmp/ced-me/new",
    some ⟨false, some str!"new", .server, []⟩, (C89_session machineA_usual _ _).1 (by decide +kernel),
    ensure_iff.1 (by decide +kernel), .inr ⟨rfl, fun _ => rfl, rfl⟩⟩⟩
example : (create machineA (some str!"old") false (fun _ => true) : R (Created Nat)) =
    .ok (.connected none (.socket str!"/tmp/ced-me/old") .new) := by
  rw [C94_created machineA_usual]
  exact ⟨.socket str!"/tmp/ced-me/old", none, (C89_session machineA_usual _ _).1 (by decide +kernel),
    ensure_iff.1 (by decide +kernel), .inr ⟨rfl, fun h => absurd rfl h, rfl⟩⟩
example : (create machineA none false (fun _ => true) : R (Created Nat)) = .ok .null := by
  rw [C94_created machineA_usual]
  exact ⟨.socket str!"/tmp/ced-me/4711", some ⟨false, some str!"4711", .server, []⟩,
    (C89_session machineA_usual _ _).1 (by decide +kernel), ensure_iff.1 (by decide +kernel), .inl ⟨rfl, rfl, by simp⟩⟩

/-- C94 needs that nobody sends the program a hint, as the script of another client's `exec` request can: it would abort
the program (C70). -/
theorem C94_hint_refuted : ((Watch.new : Watch (List (Str × Face))).run fragmentTexts JsonText.parse namedFrags
    [.line ((Wire.note (.hint [str!"x"])).encode fragmentTexts).write, .next]).toOption.isNone = true := by
  decide +kernel

end Ced.Props

import Verif.Proofs.White
import Verif.Proofs.EditorOut
import Verif.Props.CoreMove
import Verif.Props.Server

/-! # Properties of the notifications: C50, C64, C65 -/

namespace Ced.Props
open Ced Ced.Spec

/-! ## C50 -/

/-- The runs of a text: `out` has one character for each of the consecutive runs of one character that make up `src`;
only white space is repeated. -/
def Merges (src out : Str) : Prop :=
  ∃ runs : List (Char × Nat), src = runs.flatMap (fun r => List.replicate (r.2 + 1) r.1) ∧ out = runs.map Prod.fst ∧
    ∀ r ∈ runs, 0 < r.2 → white r.1 = true

/-- No white space character is followed by itself. -/
def NoRepeat (s : Str) : Prop := ∀ a b c, s = a ++ c :: c :: b → white c = false

/-- newlines are written `\n`, tabs are blanks -/
def oneLine (s : Str) : Str :=
  s.flatMap fun c => if c = '\n' then ['\\', 'n'] else if c = '\t' then [' '] else [c]

def mergeStep (st : Str × Option Char) (x : Char) : Str × Option Char :=
  if some x ≠ st.2 then (st.1 ++ [x], if white x then some x else none) else st

theorem replace_oneLine (s : Str) : replaceChar '\t' [' '] (replaceChar '\n' ['\\', 'n'] s) = oneLine s := by
  unfold replaceChar oneLine
  induction s with
  | nil => rfl
  | cons c s ih =>
    simp only [List.flatMap_cons, List.flatMap_append, ih]
    congr 1
    by_cases h : c = '\n'
    · subst h; rfl
    · simp [h]

theorem normalize_eq (s : Str) : normalizeErrorMessage s = ((oneLine s).foldl mergeStep ([], none)).1 := by
  unfold normalizeErrorMessage
  rw [replace_oneLine]
  simp only [white_eq]
  rfl

/-- what the loop has done after reading a text -/
structure Merged (src : Str) (st : Str × Option Char) : Prop where
  merges : Merges src st.1
  norep : NoRepeat st.1
  last : ∀ c, st.2 = some c ↔ (st.1.getLast? = some c ∧ white c = true)

theorem merged_step {src : Str} {st : Str × Option Char} (h : Merged src st) (x : Char) :
    Merged (src ++ [x]) (mergeStep st x) := by
  obtain ⟨⟨runs, h1, h2, h3⟩, hn, hl⟩ := h
  unfold mergeStep
  split
  · rename_i hx
    refine ⟨⟨runs ++ [(x, 0)], by simp [h1], by simp [h2], ?_⟩, ?_, ?_⟩
    · intro r hr
      rcases List.mem_append.1 hr with hr | hr
      · exact h3 r hr
      · simp only [List.mem_singleton] at hr; subst hr; intro h; simp at h
    · intro a b c e
      dsimp only at e
      rcases List.eq_nil_or_concat b with rfl | ⟨b', d, rfl⟩
      · have e' : st.1 ++ [x] = (a ++ [c]) ++ [c] := by rw [e]; simp
        obtain ⟨e1, e2⟩ := List.append_inj' e' rfl
        simp only [List.cons.injEq, and_true] at e2
        subst e2
        cases hw : white x
        · rfl
        · exact absurd ((hl x).2 ⟨by rw [e1]; simp, hw⟩).symm hx
      · have e' : st.1 ++ [x] = (a ++ c :: c :: b') ++ [d] := by rw [e]; simp
        obtain ⟨e1, _⟩ := List.append_inj' e' rfl
        exact hn a b' c e1
    · intro c
      simp only [List.getLast?_append, List.getLast?_singleton, Option.some_or]
      constructor
      · intro h
        split at h
        · cases h; exact ⟨rfl, by assumption⟩
        · cases h
      · rintro ⟨h, hw⟩
        cases h
        simp [hw]
  · rename_i hx
    simp only [ne_eq, not_not] at hx
    obtain ⟨hlast, hw⟩ := (hl x).1 hx.symm
    refine ⟨?_, hn, hl⟩
    rcases List.eq_nil_or_concat runs with rfl | ⟨rs, r, rfl⟩
    · rw [h2] at hlast; cases hlast
    · rw [h2] at hlast
      simp only [List.concat_eq_append, List.map_append, List.map_cons, List.map_nil, List.getLast?_append,
        List.getLast?_singleton, Option.some_or, Option.some.injEq] at hlast
      obtain ⟨rc, rn⟩ := r
      simp only at hlast
      subst hlast
      refine ⟨rs ++ [(rc, rn + 1)], ?_, by rw [h2]; simp, ?_⟩
      · rw [h1]
        simp only [List.concat_eq_append, List.flatMap_append, List.flatMap_cons, List.flatMap_nil, List.append_nil,
          List.append_assoc]
        congr 1
        rw [← List.replicate_succ']
      · intro r hr
        rcases List.mem_append.1 hr with hr | hr
        · exact h3 r (by simp [hr])
        · simp only [List.mem_singleton] at hr; subst hr; intro _; exact hw

theorem merged_all (s : Str) : Merged s (s.foldl mergeStep ([], none)) := by
  have key : ∀ (s src : Str) st, Merged src st → Merged (src ++ s) (s.foldl mergeStep st) := by
    intro s
    induction s with
    | nil => intro src st h; simpa using h
    | cons x s ih =>
      intro src st h
      have := ih _ _ (merged_step h x)
      simpa using this
  have := key s [] ([], none) ⟨⟨[], rfl, rfl, by simp⟩, by intro a b c e; simp at e, by intro c; simp⟩
  simpa using this

theorem mem_merges {src out : Str} (h : Merges src out) (c : Char) : c ∈ out ↔ c ∈ src := by
  obtain ⟨runs, rfl, rfl, _⟩ := h
  simp only [List.mem_map, List.mem_flatMap, List.mem_replicate]
  constructor
  · rintro ⟨r, hr, rfl⟩; exact ⟨r, hr, by omega, rfl⟩
  · rintro ⟨r, hr, _, rfl⟩; exact ⟨r, hr, rfl⟩

/-- C50: a normalised message has no newline and no tab, no white space character follows itself, and it is the message
with newlines written as `\n`, tabs as blanks, where only repetitions of a white space character have been dropped. -/
theorem C50_normalised (s : Str) :
    '\n' ∉ normalizeErrorMessage s ∧ '\t' ∉ normalizeErrorMessage s ∧ NoRepeat (normalizeErrorMessage s) ∧
      Merges (oneLine s) (normalizeErrorMessage s) := by
  rw [normalize_eq]
  have h := merged_all (oneLine s)
  refine ⟨?_, ?_, h.norep, h.merges⟩
  · rw [mem_merges h.merges]
    simp only [oneLine, List.mem_flatMap, not_exists, not_and]
    intro c _
    split
    · decide
    · split
      · decide
      · rename_i h1 h2; simpa using Ne.symm h1
  · rw [mem_merges h.merges]
    simp only [oneLine, List.mem_flatMap, not_exists, not_and]
    intro c _
    split
    · decide
    · split
      · decide
      · rename_i h1 h2; simpa using Ne.symm h2

/-- C50: the characters that are not white space are all there, in order. -/
theorem C50_keeps (s : Str) :
    (normalizeErrorMessage s).filter (fun c => !white c) = (oneLine s).filter (fun c => !white c) := by
  obtain ⟨runs, h1, h2, h3⟩ := (C50_normalised s).2.2.2
  rw [h1, h2]
  clear h1 h2
  induction runs with
  | nil => rfl
  | cons r rs ih =>
    have ih' := ih fun x hx => h3 x (List.mem_cons_of_mem _ hx)
    simp only [List.map_cons, List.flatMap_cons, List.filter_append, List.filter_cons, ← ih']
    cases hw : white r.1 with
    | false =>
      have : r.2 = 0 := by
        have := h3 r (List.mem_cons_self ..)
        rcases Nat.eq_zero_or_pos r.2 with h | h
        · exact h
        · rw [this h] at hw; cases hw
      rw [this]
      simp [hw]
    | true => simp [hw, List.filter_replicate]

example : normalizeErrorMessage str!"a  b\n\tc \t d  \n" = str!"a b\\n c d \\n" := by decide

/-! ## C64 -/

/-- Who a line of a log is about. -/
def who : Option Nat → Str
  | some id => natStr id
  | none => ['*']

/-- An echo to a client, or to all. -/
def Echo (client : Option Nat) (text : Str) (face : Face) (b : Broadcast) : Prop :=
  b.note = .echo text face ∧ match client with
    | some id => b.only = some [id]
    | none => b.only = none

/-- A line is added to a log (a buffer that is created if needed), whoever shows it sees it, and nothing else changes in
the buffers, the views and the clients. -/
def LogLine (env : Env) (w w' : World) (log : Str) (line : Str) (new : List Broadcast) : Prop :=
  w'.clients = w.clients ∧ w'.views = w.views ∧ (∀ n, n ≠ log → w'.buffers.get n = w.buffers.get n) ∧
  (∃ b', w'.buffers.get log = some b' ∧
      match w.buffers.get log with
      | none => Shows b'.content (Str.encode line)
      | some b => ∀ s, Shows b.content s → Shows b'.content (s ++ Str.encode line)) ∧
  ∃ ids, List.Forall₂ (Update env w') ids new ∧ ids.Nodup ∧ ∀ d, d ∈ ids ↔ Viewer w log d

theorem log_line {w w1 : World} (h : CoreHistory CleanName w) {env : Env} {log line : Str}
    (ha : w.appendTo env log (Str.encode (line ++ ['\n'])) = .ok w1) (b : Broadcast) :
    ∃ new, { w1 with out := w1.out ++ [b] }.out = w.out ++ new ++ [b] ∧
      LogLine env w { w1 with out := w1.out ++ [b] } log (line ++ ['\n']) new := by
  obtain ⟨h1, h2, h3, h4, ids, h5, h6, h7, h8⟩ := C35_append h ha
  refine ⟨w1.out.drop w.out.length, ?_, h1, h2, h3, h4 (World.encode_ne line), ids, ?_, h7, h8⟩
  · show w1.out ++ [b] = _
    congr 1
    have := List.take_append_drop w.out.length w1.out
    rw [h5] at this
    exact this.symm
  · exact h6

/-- C64: a message is logged with the client it is about, and told to that client only, or to all when it is for all;
whoever shows the log sees the new line. -/
theorem C64_message {w w' : World} (h : CoreHistory CleanName w) {env : Env} {client : Option Nat} {text : Str}
    (hm : w.message env client text = .ok w') :
    ∃ new b, w'.out = w.out ++ new ++ [b] ∧ Echo client text .default b ∧
      LogLine env w w' str!"*messages*" (who client ++ ['|'] ++ text ++ ['\n']) new := by
  unfold World.message at hm
  obtain ⟨w1, h1, hm⟩ := bind_inv hm
  cases client with
  | none =>
    cases hm
    obtain ⟨new, e1, e2⟩ := log_line h (line := who none ++ ['|'] ++ text) h1 ⟨none, .echo text .default⟩
    exact ⟨new, _, e1, ⟨rfl, rfl⟩, e2⟩
  | some id =>
    cases hm
    obtain ⟨new, e1, e2⟩ := log_line h (line := who (some id) ++ ['|'] ++ text) h1
      ⟨some [id], .echo text .default⟩
    exact ⟨new, _, e1, ⟨rfl, rfl⟩, e2⟩

/-- C64: an error is logged as it is, with its source and the client it is about; it is told, on one line, to that
client only, or to all when it is about none. -/
theorem C64_error {w w' : World} (h : CoreHistory CleanName w) {env : Env} {client : Option Nat} {tag text : Str}
    (hm : w.error env client tag text = .ok w') :
    ∃ new b, w'.out = w.out ++ new ++ [b] ∧ Echo client (normalizeErrorMessage (tag ++ str!": " ++ text)) .error b ∧
      LogLine env w w' str!"*errors*" (who client ++ ['|'] ++ (tag ++ str!": " ++ text) ++ ['\n']) new := by
  unfold World.error at hm
  obtain ⟨w1, h1, hm⟩ := bind_inv hm
  cases client with
  | none =>
    cases hm
    obtain ⟨new, e1, e2⟩ := log_line h (line := who none ++ ['|'] ++ (tag ++ str!": " ++ text)) h1
      ⟨none, .echo (normalizeErrorMessage (tag ++ str!": " ++ text)) .error⟩
    exact ⟨new, _, e1, ⟨rfl, rfl⟩, e2⟩
  | some id =>
    cases hm
    obtain ⟨new, e1, e2⟩ := log_line h (line := who (some id) ++ ['|'] ++ (tag ++ str!": " ++ text)) h1
      ⟨some [id], .echo (normalizeErrorMessage (tag ++ str!": " ++ text)) .error⟩
    exact ⟨new, _, e1, ⟨rfl, rfl⟩, e2⟩

example : ((final (session [.join 1 [], .join 2 []])).message envA (some 2) str!"hi").toOption.map (fun w => w.out.getLast?) =
    some (some ⟨some [2], .echo str!"hi" .default⟩) := by decide +kernel
example : ((final (session [.join 1 [], .message (some 1) str!"a"])).message envA none str!"hi").toOption.map
    (fun w => (w.buffers.get BUFFER_MESSAGES).map fun b => b.content.text) =
    some (some (.ok (Str.encode str!"1|a\n*|hi\n"))) := by decide +kernel

/-! ## C65 -/

/-- What an operation may send. -/
def MaySend (w w' : World) (op : CoreOp) (b : Broadcast) : Prop :=
  (∃ c items, b = ⟨some [c], .view items⟩ ∧ w'.clients.map.has c = true) ∨
  (∃ id s, op = .join id s ∧ b = ⟨some [id], .info (natStr id) s w.cwd⟩) ∨
  (∃ c text, op = .message c text ∧ Echo c text .default b) ∨
  (∃ c tag text, op = .error c tag text ∧ Echo c (normalizeErrorMessage (tag ++ str!": " ++ text)) .error b) ∨
  (∃ c n, op = .notify c n ∧ b = ⟨some [c], n⟩)

theorem may_of_sends {w w' : World} {op : CoreOp} (h : World.Sends w w') :
    ∃ new, w'.out = w.out ++ new ∧ ∀ b ∈ new, MaySend w w' op b := by
  obtain ⟨hk, new, e, hp⟩ := h
  refine ⟨new, e, fun b hb => .inl ?_⟩
  obtain ⟨c, items, e, hc⟩ := hp b hb
  exact ⟨c, items, e, by rw [hk]; exact hc⟩

/-- C65: an operation takes nothing back from the queue of notifications and puts at its end what it sends: views, each
for one client that is connected, the greeting of a client that joins, for it alone, the texts of messages and errors,
and what it was asked to notify a client of (its menu, hint or status), for that client alone. -/
theorem C65_queued {env : Env} {w w' : World} {op : CoreOp} (h : op.run env w = .ok w') :
    ∃ new, w'.out = w.out ++ new ∧ ∀ b ∈ new, MaySend w w' op b := by
  cases op with
  | join id s =>
    simp only [CoreOp.run, World.addClient] at h
    obtain ⟨ctx, _, h⟩ := bind_inv h
    obtain ⟨⟨cs, o⟩, hcs, h⟩ := bind_inv h
    obtain ⟨w1, h1, h⟩ := bind_inv h
    cases h
    obtain ⟨new, e, hp⟩ := may_of_sends (op := .join id s) (World.sends_debug h1)
    refine ⟨new ++ [⟨some [id], .info (natStr id) s w1.cwd⟩], ?_, ?_⟩
    · show w1.out ++ _ = _
      rw [e, List.append_assoc]
    · intro b hb
      rcases List.mem_append.1 hb with hb | hb
      · rcases hp b hb with h | h | ⟨_, _, h, _⟩ | ⟨_, _, _, h, _⟩ | ⟨_, _, h, _⟩
        · exact .inl h
        · exact .inr (.inl h)
        · cases h
        · cases h
        · cases h
      · simp only [List.mem_singleton] at hb
        subst hb
        have : w1.cwd = w.cwd := by
          have := (World.debug_ok h1).cwd; exact this
        exact .inr (.inl ⟨id, s, rfl, by rw [this]⟩)
  | leave id =>
    simp only [CoreOp.run, World.removeClient] at h
    have s := World.sends_debug h
    obtain ⟨new, e, hp⟩ := may_of_sends (op := .leave id) s
    exact ⟨new, e, hp⟩
  | edit c n s => exact may_of_sends (World.sends_edit h)
  | scratch c n t => exact may_of_sends (World.sends_scratch h)
  | view c id => obtain ⟨⟨w1, o⟩, h1, rfl⟩ := map_inv h; exact may_of_sends (World.sends_view h1)
  | viewDelete c => exact may_of_sends (World.sends_deleteCurrentView h)
  | viewAdd c b => obtain ⟨⟨w1, o⟩, h1, rfl⟩ := map_inv h; exact may_of_sends (World.sends_addTo h1)
  | viewRemove c b => obtain ⟨⟨w1, o⟩, h1, rfl⟩ := map_inv h; exact may_of_sends (World.sends_removeFrom h1)
  | move c d e => exact may_of_sends (World.sends_move h)
  | deleteSelection c => obtain ⟨⟨w1, o⟩, h1, rfl⟩ := map_inv h; exact may_of_sends (World.sends_deleteSelection h1)
  | append b x xs => exact may_of_sends (World.sends_append h)
  | debug t => exact may_of_sends (World.sends_debug h)
  | message c t =>
    simp only [CoreOp.run, World.message] at h
    obtain ⟨w1, h1, h⟩ := bind_inv h
    obtain ⟨new, e, hp⟩ := may_of_sends (op := .message c t) (World.sends_append h1)
    have ho : ∃ b, w' = { w1 with out := w1.out ++ [b] } ∧ Echo c t .default b := by
      cases c <;> cases h <;> exact ⟨_, rfl, rfl, rfl⟩
    obtain ⟨b0, rfl, hb0⟩ := ho
    refine ⟨new ++ [b0], ?_, ?_⟩
    · show w1.out ++ [b0] = _; rw [e, List.append_assoc]
    · intro b hb
      rcases List.mem_append.1 hb with hb | hb
      · exact hp b hb
      · simp only [List.mem_singleton] at hb; subst hb
        exact .inr (.inr (.inl ⟨c, t, rfl, hb0⟩))
  | error c tag t =>
    simp only [CoreOp.run, World.error] at h
    obtain ⟨w1, h1, h⟩ := bind_inv h
    obtain ⟨new, e, hp⟩ := may_of_sends (op := .error c tag t) (World.sends_append h1)
    have ho : ∃ b, w' = { w1 with out := w1.out ++ [b] } ∧
        Echo c (normalizeErrorMessage (tag ++ str!": " ++ t)) .error b := by
      cases c <;> cases h <;> exact ⟨_, rfl, rfl, rfl⟩
    obtain ⟨b0, rfl, hb0⟩ := ho
    refine ⟨new ++ [b0], ?_, ?_⟩
    · show w1.out ++ [b0] = _; rw [e, List.append_assoc]
    · intro b hb
      rcases List.mem_append.1 hb with hb | hb
      · exact hp b hb
      · simp only [List.mem_singleton] at hb; subst hb
        exact .inr (.inr (.inr (.inl ⟨c, tag, t, rfl, hb0⟩)))
  | notify c n =>
    cases h
    refine ⟨[⟨some [c], n⟩], rfl, fun b hb => ?_⟩
    rw [List.mem_singleton.1 hb]
    exact .inr (.inr (.inr (.inr ⟨c, n, rfl, rfl⟩)))

/-- The notifications written to a client. -/
def notesTo (c : Nat) (written : List (Nat × Wire)) : List Note :=
  written.filterMap fun x => match x with
    | (c', .note n) => if c' = c then some n else none
    | _ => none

instance (b : Broadcast) (c : Nat) : Decidable (Addressed b c) := decidable_of_iff _ shouldNotify_iff

/-- Those of these broadcast notifications that are addressed to a client. -/
def notesFor (c : Nat) (bs : List Broadcast) : List Note := (bs.filter fun b => decide (Addressed b c)).map (·.note)

theorem notesTo_append (c : Nat) (a b : List (Nat × Wire)) : notesTo c (a ++ b) = notesTo c a ++ notesTo c b := by
  unfold notesTo; rw [List.filterMap_append]

theorem notesFor_append (c : Nat) (a b : List Broadcast) : notesFor c (a ++ b) = notesFor c a ++ notesFor c b := by
  unfold notesFor; simp

variable {L : Type}

/-- Every script of a schedule only adds notifications. -/
def Appends (steps : List (Server.Step L)) : Prop :=
  ∀ env wr ev, Server.Step.event env wr ev ∈ steps → Appending env.lua

theorem notes_of_index {l : List Nat} {p : Nat → Bool} {n : Note} (hn : l.Nodup) (c : Nat) :
    notesTo c ((l.filter p).map fun d => (d, Wire.note n)) = if c ∈ l ∧ p c = true then [n] else [] := by
  induction l with
  | nil => simp [notesTo]
  | cons d l ih =>
    obtain ⟨hd, hn⟩ := List.nodup_cons.1 hn
    have ih := ih hn
    by_cases hp : p d = true
    · rw [List.filter_cons_of_pos hp, List.map_cons]
      show notesTo c ([(d, Wire.note n)] ++ _) = _
      rw [notesTo_append, ih]
      by_cases hc : d = c
      · subst hc
        simp [notesTo, hd, hp]
      · have hc' : c ≠ d := fun h => hc h.symm
        simp [notesTo, hc, hc']
    · rw [List.filter_cons_of_neg hp, ih]
      by_cases hc : d = c
      · subst hc; simp [hp, hd]
      · have hc' : c ≠ d := fun h => hc h.symm
        simp [hc']

/-- an event writes no notification and takes none from the queue -/
theorem turn_notes {env : EditorEnv L} {wr last : Bool} {s s' : Server L} {ev : ServerEvent} (hl : Appending env.lua)
    (h : s.turn env wr ev = .ok (s', last)) (c : Nat) :
    notesTo c s'.written = notesTo c s.written ∧ s'.delivered = s.delivered ∧
      s.editor.core.out <+: s'.editor.core.out := by
  unfold Server.turn at h
  obtain ⟨s1, h1, h⟩ := ebind_inv h
  obtain ⟨s2, h2, h⟩ := ebind_inv h
  cases h
  obtain ⟨p1, p2, _, _, p3, _⟩ := purge_ok h2
  rw [p1, p2, p3]
  cases ev with
  | join d =>
    simp only [Server.react] at h1
    obtain ⟨e, h3, h1⟩ := ebind_inv h1
    cases h1
    exact ⟨rfl, rfl, Editor.addClient_prefix hl (lift_ok h3)⟩
  | leave d =>
    simp only [Server.react] at h1
    obtain ⟨e, h3, h1⟩ := ebind_inv h1
    obtain ⟨i, _, h1⟩ := ebind_inv h1
    cases h1
    exact ⟨rfl, rfl, Editor.removeClient_prefix hl (lift_ok h3)⟩
  | message d line =>
    simp only [Server.react] at h1
    obtain ⟨⟨e, r⟩, h3, h1⟩ := ebind_inv h1
    dsimp only at h1
    split at h1
    · split at h1
      · cases h1
        refine ⟨?_, rfl, Editor.handle_prefix hl (lift_ok h3)⟩
        show notesTo c (s.written ++ _) = _
        rw [notesTo_append]
        simp [notesTo]
      · cases h1
    · cases h1

theorem deliver_notes {s : Server L} (hn : s.index.Nodup) (broken : List Nat) (c : Nat) :
    (s.deliver broken).editor = s.editor ∧
    ((s.deliver broken = s ∧ s.editor.core.out.length ≤ s.delivered) ∨ ∃ b, s.editor.core.out[s.delivered]? = some b ∧
      (s.deliver broken).delivered = s.delivered + 1 ∧
      notesTo c (s.deliver broken).written = notesTo c s.written ++
        if c ∈ s.index ∧ Addressed b c ∧ c ∉ broken then [b.note] else []) := by
  unfold Server.deliver
  split
  · rename_i h
    exact ⟨rfl, .inl ⟨rfl, by simpa using h⟩⟩
  · rename_i b hb
    refine ⟨rfl, .inr ⟨b, hb, rfl, ?_⟩⟩
    rw [notesTo_append]
    congr 1
    rw [notes_of_index hn]
    have : (c ∈ s.index ∧ (b.shouldNotify c && !broken.contains c) = true) ↔ (c ∈ s.index ∧ Addressed b c ∧ c ∉ broken) := by
      rw [← shouldNotify_iff]; simp
    simp only [this]

theorem take_succ_some {α : Type} {l : List α} {n : Nat} {b : α} (h : l[n]? = some b) :
    l.take (n + 1) = l.take n ++ [b] := by
  rw [List.take_succ, h]; rfl

theorem prefix_take {α : Type} {a b : List α} (h : a <+: b) {n : Nat} (hn : n ≤ a.length) : b.take n = a.take n := by
  obtain ⟨t, rfl⟩ := h
  rw [List.take_append_of_le_length hn]

/-- C65: over any run of the server, what is written to a client are notifications addressed to it, each at most once,
in the order in which they were queued. -/
theorem C65_order {steps : List (Server.Step L)} {s s' : Server L} {r : Option (List (Server.Step L))}
    (hr : ServerRun s) (hl : Appends steps) (h : s.loop steps = .ok (s', r)) (c : Nat)
    (h0 : s.delivered ≤ s.editor.core.out.length)
    (h1 : (notesTo c s.written).Sublist (notesFor c (s.editor.core.out.take s.delivered))) :
    (notesTo c s'.written).Sublist (notesFor c (s'.editor.core.out.take s'.delivered)) ∧
      s'.delivered ≤ s'.editor.core.out.length := by
  induction steps generalizing s with
  | nil => cases h; exact ⟨h1, h0⟩
  | cons x steps ih =>
    have hl' : Appends steps := fun env wr ev hm => hl env wr ev (List.mem_cons_of_mem _ hm)
    cases x with
    | deliver broken =>
      rw [Server.loop] at h
      obtain ⟨he, hd⟩ := deliver_notes (nodup_run hr) broken c
      refine ih (.deliver broken hr) hl' h ?_ ?_
      · rcases hd with ⟨hd, _⟩ | ⟨b, hb, hd, _⟩
        · rw [hd]; exact h0
        · rw [hd, he]
          have := (List.getElem?_eq_some_iff.1 hb).1
          omega
      · rcases hd with ⟨hd, _⟩ | ⟨b, hb, hd, hn⟩
        · rw [hd]; exact h1
        · rw [hd, he, hn, take_succ_some hb, notesFor_append]
          refine h1.append ?_
          split
          · rename_i hh; simp [notesFor, hh.2.1]
          · exact List.nil_sublist _
    | event env wr ev =>
      rw [Server.loop] at h
      obtain ⟨⟨s1, last⟩, h2, h⟩ := ebind_inv h
      dsimp only at h
      obtain ⟨n1, n2, n3⟩ := turn_notes (hl env wr ev (List.mem_cons_self ..)) h2 c
      have k0 : s1.delivered ≤ s1.editor.core.out.length := by
        rw [n2]; exact Nat.le_trans h0 n3.length_le
      have k1 : (notesTo c s1.written).Sublist (notesFor c (s1.editor.core.out.take s1.delivered)) := by
        rw [n1, n2, prefix_take n3 h0]; exact h1
      cases last with
      | true => simp only [if_true] at h; cases h; exact ⟨k1, k0⟩
      | false => exact ih (.event hr h2) hl' h k0 k1

/-- C65: the same from the start of the server. -/
theorem C65_run {steps : List (Server.Step L)} {e : Editor L} {s' : Server L} {r : Option (List (Server.Step L))}
    (hl : Appends steps) (h : (Server.start e).loop steps = .ok (s', r)) (c : Nat) :
    (notesTo c s'.written).Sublist (notesFor c (s'.editor.core.out.take s'.delivered)) :=
  (C65_order (.start e) hl h c (Nat.zero_le _) (List.nil_sublist _)).1

/-- A client stays during a schedule: it does not disconnect, does not quit, and its connection works. -/
def Stays (c : Nat) (steps : List (Server.Step L)) : Prop :=
  (∀ env wr, Server.Step.event env wr (.leave c) ∉ steps) ∧
  (∀ env wr line, Server.Step.event env wr (.message c line) ∈ steps → ¬ QuitLine env line) ∧
  (∀ broken, Server.Step.deliver broken ∈ steps → c ∉ broken)

theorem mem_removed {ids l l' : List Nat} (h : ids.foldlM Server.removeIndex l = .ok l') {c : Nat} (hc : c ∈ l)
    (hn : c ∉ ids) : c ∈ l' := (foldl_remove h).2 ⟨hc, hn⟩

/-- an event of others, or a line that does not quit, leaves a client in the index -/
theorem turn_stays {env : EditorEnv L} {wr last : Bool} {s s' : Server L} {ev : ServerEvent} {c : Nat}
    (hm : s.editor.Menus) (hs : s.editor.stopped = []) (hc : c ∈ s.index) (h : s.turn env wr ev = .ok (s', last))
    (h1 : ev ≠ .leave c) (h2 : ∀ line, ev = .message c line → ¬ QuitLine env line) :
    s'.editor.Menus ∧ s'.editor.stopped = [] ∧ c ∈ s'.index := by
  unfold Server.turn at h
  obtain ⟨s1, h3, h⟩ := ebind_inv h
  obtain ⟨s2, h4, h⟩ := ebind_inv h
  cases h
  obtain ⟨_, _, p1, p2, _, p3⟩ := purge_ok h4
  have key : s1.editor.Menus ∧ c ∉ s1.editor.stopped ∧ c ∈ s1.index := by
    cases ev with
    | join d =>
      simp only [Server.react] at h3
      obtain ⟨e, h5, h3⟩ := ebind_inv h3
      cases h3
      have sm := Editor.same_addClient (lift_ok h5)
      refine ⟨Editor.menus_of_same sm hm, by show c ∉ e.stopped; rw [sm.stopped, hs]; simp, ?_⟩
      show c ∈ Server.addIndex _ _
      unfold Server.addIndex
      split
      · exact hc
      · exact List.mem_append_left _ hc
    | leave d =>
      simp only [Server.react] at h3
      obtain ⟨e, h5, h3⟩ := ebind_inv h3
      obtain ⟨i, h6, h3⟩ := ebind_inv h3
      cases h3
      have sm := Editor.same_removeClient (lift_ok h5)
      obtain ⟨_, rfl⟩ := removeIndex_ok h6
      refine ⟨Editor.menus_of_same sm hm, by show c ∉ e.stopped; rw [sm.stopped, hs]; simp, ?_⟩
      refine List.mem_filter.2 ⟨hc, ?_⟩
      have : c ≠ d := fun e => h1 (by rw [e])
      simpa using this
    | message d line =>
      simp only [Server.react] at h3
      obtain ⟨⟨e, r⟩, h5, h3⟩ := ebind_inv h3
      have mh := Editor.menus_handle hm (lift_ok h5)
      dsimp only at h3
      split at h3
      · split at h3
        · cases h3
          refine ⟨mh.1, ?_, hc⟩
          show c ∉ e.stopped
          by_cases hd : d = c
          · subst hd
            rw [mh.2.2.1 (h2 line rfl), hs]; simp
          · rcases mh.2.2.2 with h | h
            · rw [h, hs]; simp
            · rw [h, hs]
              simpa using fun e => hd e.symm
        · cases h3
      · cases h3
  refine ⟨?_, p1, mem_removed p3 key.2.2 key.2.1⟩
  unfold Editor.Menus; rw [p2]; exact key.1

/-- C65: a client that stays connected loses none: it is written every notification addressed to it that is taken from
the queue in the meantime, in order, once. -/
theorem C65_none_lost {steps : List (Server.Step L)} {s s' : Server L} {r : Option (List (Server.Step L))} {c : Nat}
    (hr : ServerRun s) (hm : MenusOk s.editor.menus ∧ NoOtherMenus s.editor.menus) (hs : s.editor.stopped = [])
    (hc : c ∈ s.index) (h0 : s.delivered ≤ s.editor.core.out.length) (hl : Appends steps) (hst : Stays c steps)
    (h : s.loop steps = .ok (s', r)) :
    notesTo c s'.written = notesTo c s.written ++ notesFor c ((s'.editor.core.out.take s'.delivered).drop s.delivered) ∧
      s.editor.core.out <+: s'.editor.core.out ∧ s.delivered ≤ s'.delivered ∧
      s'.delivered ≤ s'.editor.core.out.length := by
  induction steps generalizing s with
  | nil =>
    cases h
    refine ⟨?_, List.prefix_refl _, Nat.le_refl _, h0⟩
    rw [List.drop_of_length_le (by rw [List.length_take]; omega)]
    simp [notesFor]
  | cons x steps ih =>
    have hl' : Appends steps := fun env wr ev hm => hl env wr ev (List.mem_cons_of_mem _ hm)
    have hst' : Stays c steps := ⟨fun env wr hx => hst.1 env wr (List.mem_cons_of_mem _ hx),
      fun env wr l hx => hst.2.1 env wr l (List.mem_cons_of_mem _ hx), fun b hx => hst.2.2 b (List.mem_cons_of_mem _ hx)⟩
    cases x with
    | deliver broken =>
      rw [Server.loop] at h
      obtain ⟨he, hd⟩ := deliver_notes (nodup_run hr) broken c
      have hi := nodup_deliver (s := s) (broken := broken)
      rcases hd with ⟨hd, _⟩ | ⟨b, hb, hd, hn⟩
      · rw [hd] at h; exact ih hr hm hs hc h0 hl' hst' h
      · have hlt := (List.getElem?_eq_some_iff.1 hb).1
        obtain ⟨i1, i2, i3, i4⟩ := ih (.deliver broken hr) (by rw [he]; exact hm) (by rw [he]; exact hs) (by rw [hi]; exact hc)
          (by rw [hd, he]; omega) hl' hst' h
        rw [he] at i2
        rw [hd] at i1 i3
        refine ⟨?_, i2, by omega, i4⟩
        rw [i1, hn, List.append_assoc]
        congr 1
        have hget : s'.editor.core.out[s.delivered]? = some b := by
          obtain ⟨t, ht⟩ := i2
          rw [← ht, List.getElem?_append_left hlt]; exact hb
        have hdrop : (s'.editor.core.out.take s'.delivered).drop s.delivered =
            b :: (s'.editor.core.out.take s'.delivered).drop (s.delivered + 1) := by
          have hget' : (s'.editor.core.out.take s'.delivered)[s.delivered]? = some b := by
            rw [List.getElem?_take_of_lt (by omega)]; exact hget
          obtain ⟨hlen, hval⟩ := List.getElem?_eq_some_iff.1 hget'
          rw [List.drop_eq_getElem_cons hlen, hval]
        rw [hdrop]
        have : c ∉ broken := hst.2.2 broken (List.mem_cons_self ..)
        by_cases ha : Addressed b c <;> simp [notesFor, ha, hc, this]
    | event env wr ev =>
      rw [Server.loop] at h
      obtain ⟨⟨s1, last⟩, h2, h⟩ := ebind_inv h
      dsimp only at h
      obtain ⟨n1, n2, n3⟩ := turn_notes (hl env wr ev (List.mem_cons_self ..)) h2 c
      obtain ⟨t1, t2, t3⟩ := turn_stays hm hs hc h2
        (fun e => hst.1 env wr (by rw [e]; exact List.mem_cons_self ..))
        (fun line e => hst.2.1 env wr line (by rw [e]; exact List.mem_cons_self ..))
      have k0 : s1.delivered ≤ s1.editor.core.out.length := by
        rw [n2]; exact Nat.le_trans h0 n3.length_le
      cases last with
      | true =>
        simp only [if_true] at h; cases h
        refine ⟨?_, n3, by omega, k0⟩
        rw [n1, n2, List.drop_of_length_le (by rw [List.length_take]; omega)]
        simp [notesFor]
      | false =>
        obtain ⟨i1, i2, i3, i4⟩ := ih (.event hr h2) t1 t2 t3 k0 hl' hst' h
        exact ⟨by rw [i1, n1, n2], n3.trans i2, by omega, i4⟩

theorem luaA_appending : Appending luaA := by
  refine ⟨?_, ?_, ?_, ?_⟩
  · intro c l w l' w' m h; cases h; exact List.prefix_refl _
  · intro c l w l' w' m h; cases h; exact List.prefix_refl _
  · intro c k l w l' w' m h; cases h; exact List.prefix_refl _
  · intro c s l w l' w' m h
    obtain ⟨w1, h1, e⟩ := map_inv h
    cases e
    exact World.message_prefix h1

example : Appends twoClients := by
  intro env wr ev h
  have : env.lua = luaA := by
    simp only [twoClients, List.mem_cons, List.not_mem_nil, or_false, Server.Step.event.injEq, reduceCtorEq, false_or] at h
    rcases h with ⟨rfl, _⟩ | ⟨rfl, _⟩ | ⟨rfl, _⟩ | ⟨rfl, _⟩ | ⟨rfl, _⟩ | ⟨rfl, _⟩ <;> rfl
  rw [this]; exact luaA_appending

/-- a client joins, opens a file and is written what was queued for it -/
def stayingClient : List (Server.Step Unit) :=
  [.event editorEnvA true (.message 1 editLine), .deliver [2], .deliver [], .deliver []]

/-- The first client has joined. -/
def joinedServer : Server Unit :=
  match (Server.start emptyEditor).turn editorEnvA true (.join 1) with
  | .ok (s, _) => s
  | .error _ => Server.start emptyEditor

example : Stays 1 stayingClient := by
  refine ⟨?_, ?_, ?_⟩
  · intro env wr h
    simp [stayingClient] at h
  · intro env wr line h
    simp only [stayingClient, List.mem_cons, List.not_mem_nil, or_false, reduceCtorEq,
      Server.Step.event.injEq, ServerEvent.message.injEq] at h
    obtain ⟨rfl, _, _, rfl⟩ := h
    rintro ⟨q, hq, hm⟩
    have h1 : ((JsonText.parse editLine).bind Request.decode).map Request.method = some str!"edit" := by decide +kernel
    have h2 : (JsonText.parse editLine).bind Request.decode = some q := hq
    rw [h2] at h1
    simp only [Option.map_some, Option.some.injEq] at h1
    rcases hm with hm | hm
    · rw [h1] at hm; revert hm; decide
    · have hm := hm.1; rw [h1] at hm; revert hm; decide
  · intro broken h
    simp only [stayingClient, List.mem_cons, List.not_mem_nil, or_false, reduceCtorEq,
      Server.Step.deliver.injEq, false_or] at h
    rcases h with rfl | rfl | rfl <;> decide

example : joinedServer.index = [1] ∧ joinedServer.editor.stopped = [] ∧ joinedServer.editor.core.out.length = 2 := by
  decide +kernel

example : ((joinedServer.loop stayingClient).toOption.map fun x => ((notesTo 1 x.1.written).length, x.1.delivered)) =
    some (3, 3) := by decide +kernel

end Ced.Props

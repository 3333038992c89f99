import Verif.Spec.Printing
import Verif.Props.UserScreen
import Verif.Proofs.EditorOut

/-!
# What a standalone session prints (C101)
-/

namespace Ced.Props
open Spec Solo

variable {L : Type}

/-- With the same files and scripts all the time, it is the session of C71. -/
theorem answered_lines (env : EditorEnv L) (e : Ced.Editor L) (ls : List Str) :
    answered e (ls.map fun l => (env, l)) = Standalone.lines env e ls := by
  induction ls generalizing e with
  | nil => rfl
  | cons l ls ih =>
    simp only [List.map_cons, answered, Standalone.lines]
    congr 1
    funext x
    obtain ⟨e1, r⟩ := x
    simp only [ih e1]

theorem answered_snoc {e e1 e2 : Ced.Editor L} {done : List (EditorEnv L × Str)} {rs : List Response} {env : EditorEnv L} {l : Str}
    {r : Response} (h : answered e done = .ok (e1, rs)) (h2 : e1.handle env 1 l = .ok (e2, r)) :
    answered e (done ++ [(env, l)]) = .ok (e2, rs ++ [r]) := by
  induction done generalizing e rs with
  | nil => cases h; simp [answered, h2, bind, Except.bind, pure, Except.pure]
  | cons x done ih =>
    obtain ⟨env', l'⟩ := x
    unfold answered at h
    obtain ⟨⟨e3, r3⟩, h3, h⟩ := bind_inv h
    obtain ⟨⟨e4, r4⟩, h4, h⟩ := bind_inv h
    cases h
    simp only [List.cons_append, answered, h3, bind, Except.bind, ih h4]
    rfl

theorem responses_append (a b : List Wire) : responsesIn (a ++ b) = responsesIn a ++ responsesIn b := by
  unfold responsesIn; rw [List.filterMap_append]

theorem notes_append (a b : List Wire) : notesIn (a ++ b) = notesIn a ++ notesIn b := by
  unfold notesIn; rw [List.filterMap_append]

theorem forClient_append (a b : List Broadcast) : forClient (a ++ b) = forClient a ++ forClient b := by
  unfold forClient; rw [List.filter_append, List.map_append]

/-- All the scripts of the input keep the notifications. -/
def AllAppend (input : List (EditorEnv L × Str)) (last : EditorEnv L) : Prop :=
  (∀ x ∈ input, Appending x.1.lua) ∧ Appending last.lua

/-- What holds all the time. -/
structure AloneOk (e0 : Ced.Editor L) (input0 : List (EditorEnv L × Str)) (last0 : EditorEnv L) (s : Solo L) : Prop where
  last : s.last = last0
  lines : ∃ done e rs, input0 = done ++ s.input ∧ answered e0 done = .ok (e, rs) ∧ rs = responsesIn s.out ++ s.reply.toList ∧
    (s.left = false → s.editor = e) ∧
    (s.left = true → s.input = [] ∧ s.reply = none ∧ e.removeClient last0 1 = .ok s.editor)
  told : ∃ pb, pb ++ s.hand.toList ++ s.chan ++ s.sends = s.editor.core.out ∧ notesIn s.out = forClient pb
  room : s.chan.length ≤ 100
  over : s.ended = true → s.left = true ∧ s.sends = []

theorem alone_start {e : Ced.Editor L} (input : List (EditorEnv L × Str)) (last : EditorEnv L) (h : Standalone.fits e = true) :
    AloneOk e input last (Solo.start e input last) where
  last := rfl
  lines := ⟨[], e, [], rfl, rfl, rfl, fun _ => rfl, fun h => (by cases h)⟩
  told := ⟨[], by simp [Solo.start], rfl⟩
  room := of_decide_eq_true h
  over h := by cases h

theorem drop_out {e e' : Ced.Editor L} (h : e.core.out <+: e'.core.out) : e.core.out ++ e'.core.out.drop e.core.out.length = e'.core.out := by
  obtain ⟨t, h⟩ := h
  rw [← h]; simp

variable {e0 : Ced.Editor L} {input0 : List (EditorEnv L × Str)} {last0 : EditorEnv L} {s t : Solo L}

theorem alone_step (hl : AllAppend input0 last0) (i : AloneOk e0 input0 last0 s) (h : Step s t) : AloneOk e0 input0 last0 t := by
  obtain ⟨il, ⟨done, e, rs, h1, h2, h3, h4, h5⟩, ⟨pb, t1, t2⟩, ir, io⟩ := i
  cases h with
  | @line env l ls e' r a b c d =>
    have hnl : s.left = false := by
      cases hx : s.left with
      | false => rfl
      | true => rw [(h5 hx).1] at c; cases c
    have he := h4 hnl
    have hp : s.editor.core.out <+: e'.core.out := Editor.handle_prefix (hl.1 (env, l) (by rw [h1, c]; simp)) d
    refine ⟨il, ⟨done ++ [(env, l)], e', rs ++ [r], ?_, ?_, ?_, fun _ => rfl, ?_⟩, ⟨pb, ?_, t2⟩, ir, ?_⟩
    · rw [h1, c]; simp
    · exact answered_snoc h2 (by rw [← he]; exact d)
    · rw [h3, b]; simp
    · intro hx; rw [hnl] at hx; cases hx
    · show pb ++ s.hand.toList ++ s.chan ++ e'.core.out.drop s.editor.core.out.length = e'.core.out
      rw [a, List.append_nil] at t1
      rw [t1, drop_out hp]
    · intro hx; have := (io hx).1; rw [hnl] at this; cases this
  | @send b bs a c =>
    refine ⟨il, ⟨done, e, rs, h1, h2, h3, h4, h5⟩, ⟨pb, ?_, t2⟩, ?_, ?_⟩
    · rw [← t1, a]; simp
    · simp [Standalone.capacity] at c ⊢; omega
    · intro hx; have := (io hx).2; rw [a] at this; cases this
  | @answer r a b =>
    refine ⟨il, ⟨done, e, rs, h1, h2, ?_, h4, ?_⟩, ⟨pb, t1, ?_⟩, ir, io⟩
    · rw [h3, b, responses_append]; simp [responsesIn]
    · intro hx; have := (h5 hx).2.1; rw [b] at this; cases this
    · rw [notes_append, t2]; simp [notesIn]
  | @leave e' a b c d f =>
    rw [il] at f
    have hp : s.editor.core.out <+: e'.core.out := Editor.removeClient_prefix hl.2 f
    refine ⟨il, ⟨done, e, rs, h1, h2, h3, fun hx => (by cases hx), fun _ => ⟨c, b, ?_⟩⟩, ⟨pb, ?_, t2⟩, ir, fun hx => ?_⟩
    · rw [← h4 d]; exact f
    · show pb ++ s.hand.toList ++ s.chan ++ e'.core.out.drop s.editor.core.out.length = e'.core.out
      rw [a, List.append_nil] at t1
      rw [t1, drop_out hp]
    · have := (io hx).1; rw [d] at this; cases this
  | exit a b c => exact ⟨il, ⟨done, e, rs, h1, h2, h3, h4, h5⟩, ⟨pb, t1, t2⟩, ir, fun _ => ⟨a, b⟩⟩
  | @receive b bs a c d =>
    refine ⟨il, ⟨done, e, rs, h1, h2, h3, h4, h5⟩, ⟨pb, ?_, t2⟩, ?_, io⟩
    · rw [← t1, c, d]; simp
    · rw [d] at ir; simp at ir ⊢; omega
  | @print b a c =>
    refine ⟨il, ⟨done, e, rs, h1, h2, ?_, h4, h5⟩, ⟨pb ++ [b], ?_, ?_⟩, ir, io⟩
    · rw [h3]; dsimp only; split
      · rw [responses_append]; simp [responsesIn]
      · rfl
    · rw [← t1, c]; simp
    · rw [forClient_append]; dsimp only
      split
      · rename_i hn
        have hn' : b.shouldNotify 1 = true := hn
        rw [notes_append, t2]; simp [notesIn, forClient, hn']
      · rename_i hn
        have hn' : b.shouldNotify 1 = false := Bool.eq_false_iff.2 hn
        rw [t2]; simp [forClient, hn']

theorem alone_run {n : Nat} (hl : AllAppend input0 last0) (h : Run n s t) (i : AloneOk e0 input0 last0 s) : AloneOk e0 input0 last0 t := by
  induction h with
  | nil => exact i
  | cons hs _ ih => exact ih (alone_step hl i hs)

/-- C101: at every moment of a standalone session, whatever the two threads do: some of the lines are treated, in order; their
responses are printed in that order, each once, the last one possibly not yet; among them the beginning of the notifications for
the client is printed, in order, each once and whole. -/
theorem C101_output {n : Nat} (hf : Standalone.fits e0 = true) (hl : AllAppend input0 last0)
    (h : Run n (Solo.start e0 input0 last0) s) :
    (∃ done later e rs, input0 = done ++ later ∧ answered e0 done = .ok (e, rs) ∧
      responsesIn s.out <+: rs ∧ rs.length ≤ (responsesIn s.out).length + 1) ∧
    notesIn s.out <+: forClient s.editor.core.out := by
  obtain ⟨_, ⟨done, e, rs, h1, h2, h3, _⟩, ⟨pb, t1, t2⟩, _, _⟩ := alone_run hl h (alone_start input0 last0 hf)
  refine ⟨⟨done, s.input, e, rs, h1, h2, by rw [h3]; exact List.prefix_append .., ?_⟩, ?_⟩
  · rw [h3, List.length_append]
    cases s.reply <;> simp
  · rw [t2, ← t1, List.append_assoc, List.append_assoc, forClient_append]
    exact List.prefix_append ..

/-- C101: when the process has ended, every line has been answered, in order, and all the notifications for the client have been
printed, in order, but for at most 101 of the last ones. -/
theorem C101_end {n : Nat} (hf : Standalone.fits e0 = true) (hl : AllAppend input0 last0)
    (h : Run n (Solo.start e0 input0 last0) s) (he : s.ended = true) :
    (∃ e, answered e0 input0 = .ok (e, responsesIn s.out) ∧ e.removeClient last0 1 = .ok s.editor) ∧
    ∃ missing, missing.length ≤ 101 ∧ notesIn s.out ++ missing = forClient s.editor.core.out := by
  obtain ⟨_, ⟨done, e, rs, h1, h2, h3, _, h5⟩, ⟨pb, t1, t2⟩, ir, io⟩ := alone_run hl h (alone_start input0 last0 hf)
  obtain ⟨o1, o2⟩ := io he
  obtain ⟨k1, k2, k3⟩ := h5 o1
  refine ⟨⟨e, ?_, k3⟩, forClient (s.hand.toList ++ s.chan), ?_, ?_⟩
  · rw [h1, k1, List.append_nil, h2, h3, k2]; simp
  · have : (forClient (s.hand.toList ++ s.chan)).length ≤ (s.hand.toList ++ s.chan).length := by
      unfold forClient; rw [List.length_map]; exact List.length_filter_le ..
    rw [List.length_append] at this
    have h1 : s.hand.toList.length ≤ 1 := by cases s.hand <;> simp
    omega
  · rw [t2, ← forClient_append, ← t1, o2, List.append_nil, List.append_assoc]

/-! ## The threads never wait for each other for ever -/

/-- C101: as long as the process has not ended, one of the threads can go on - unless the editor crashes at the next line, or at
the end of the input. -/
theorem C101_progress {n : Nat} (hf : Standalone.fits e0 = true) (hl : AllAppend input0 last0)
    (h : Run n (Solo.start e0 input0 last0) s) (he : s.ended = false) (hstuck : ¬ ∃ t, Step s t) :
    (∃ env l ls k, s.input = (env, l) :: ls ∧ s.editor.handle env 1 l = .error k) ∨
    (s.input = [] ∧ ∃ k, s.editor.removeClient last0 1 = .error k) := by
  have i := alone_run hl h (alone_start input0 last0 hf)
  have hhand : s.hand = none := by
    cases hh : s.hand with
    | none => rfl
    | some b => exact absurd ⟨_, Step.print he hh⟩ hstuck
  have hchan : s.chan = [] := by
    cases hc : s.chan with
    | nil => rfl
    | cons b bs => exact absurd ⟨_, Step.receive he hhand hc⟩ hstuck
  have hsends : s.sends = [] := by
    cases hs : s.sends with
    | nil => rfl
    | cons b bs => exact absurd ⟨_, Step.send hs (by rw [hchan]; decide)⟩ hstuck
  have hreply : s.reply = none := by
    cases hr : s.reply with
    | none => rfl
    | some r => exact absurd ⟨_, Step.answer hsends hr⟩ hstuck
  have hleft : s.left = false := by
    cases hx : s.left with
    | false => rfl
    | true => exact absurd ⟨_, Step.exit hx hsends he⟩ hstuck
  cases hin : s.input with
  | nil =>
    refine .inr ⟨rfl, ?_⟩
    cases hr : s.editor.removeClient last0 1 with
    | error k => exact ⟨k, rfl⟩
    | ok e => exact absurd ⟨_, Step.leave hsends hreply hin hleft (by rw [i.last]; exact hr)⟩ hstuck
  | cons x ls =>
    obtain ⟨env, l⟩ := x
    refine .inl ⟨env, l, ls, ?_⟩
    cases hr : s.editor.handle env 1 l with
    | error k => exact ⟨k, rfl, rfl⟩
    | ok y => exact absurd ⟨_, Step.line hsends hreply hin hr⟩ hstuck

/-- The number of steps is given by the state. -/
theorem steps_count {n : Nat} (hl : AllAppend input0 last0) (h : Run n s t) (i : AloneOk e0 input0 last0 s) :
    n + 3 * t.sends.length + 2 * t.chan.length + t.hand.toList.length + t.reply.toList.length + 2 * t.input.length +
        3 * s.editor.core.out.length + s.left.toNat + s.ended.toNat =
      3 * s.sends.length + 2 * s.chan.length + s.hand.toList.length + s.reply.toList.length + 2 * s.input.length +
        3 * t.editor.core.out.length + t.left.toNat + t.ended.toNat := by
  induction h with
  | nil => omega
  | @cons n s t u hs _ ih =>
    have ih := ih (alone_step hl i hs)
    cases hs with
    | @line env l ls e' r a b c d =>
      have hin : (env, l) ∈ input0 := by
        obtain ⟨done, _, _, h1, _⟩ := i.lines
        rw [h1, c]; simp
      have hp := congrArg List.length (drop_out (Editor.handle_prefix (hl.1 (env, l) hin) d))
      rw [List.length_append] at hp
      rw [a, b, c]
      simp only [List.length_cons, List.length_nil, Option.toList] at ih ⊢
      omega
    | send a c => rw [a]; simp only [List.length_append, List.length_cons, List.length_nil] at ih ⊢; omega
    | answer a b => rw [b]; simp only [Option.toList, List.length_cons, List.length_nil] at ih ⊢; omega
    | @leave e' a b c d f =>
      rw [i.last] at f
      have hp := congrArg List.length (drop_out (Editor.removeClient_prefix hl.2 f))
      rw [List.length_append] at hp
      rw [a, d]
      simp only [Bool.toNat_true, Bool.toNat_false, List.length_nil] at ih ⊢
      omega
    | exit a b c => rw [c]; simp only [Bool.toNat_true, Bool.toNat_false] at ih ⊢; omega
    | receive a c d => rw [c, d]; simp only [Option.toList, List.length_cons, List.length_nil] at ih ⊢; omega
    | print a c => rw [c]; simp only [Option.toList, List.length_cons, List.length_nil] at ih ⊢; omega

/-- C101: and not for ever: two steps for each line, three for each notification, and two at the end are enough. -/
theorem C101_bounded {n : Nat} (hf : Standalone.fits e0 = true) (hl : AllAppend input0 last0)
    (h : Run n (Solo.start e0 input0 last0) s) : n ≤ 2 * input0.length + 3 * s.editor.core.out.length + 2 := by
  have i := alone_start input0 last0 hf
  have := steps_count hl h i
  have h1 : s.left.toNat ≤ 1 := Bool.toNat_le _
  have h2 : s.ended.toNat ≤ 1 := Bool.toNat_le _
  simp only [Solo.start, List.length_nil, Option.toList] at this
  omega

/-! ## All can be printed, and much can be lost -/

theorem solo_append {m n : Nat} {u : Solo L} (h1 : Run m s t) (h2 : Run n t u) : ∃ k, Run k s u := by
  induction h1 with
  | nil => exact ⟨n, h2⟩
  | cons hs _ ih =>
    obtain ⟨k, hk⟩ := ih h2
    exact ⟨k + 1, .cons hs hk⟩

theorem solo_one (h : Step s t) : Run 1 s t := .cons h (.nil t)

/-- The main thread is at the same place. -/
structure SamePlace (s t : Solo L) : Prop where
  editor : t.editor = s.editor
  input : t.input = s.input
  last : t.last = s.last
  left : t.left = s.left
  reply : t.reply = s.reply
  ended : t.ended = s.ended

/-- What the printing thread has done: the notifications `pb` are printed, where they are for the client. -/
def Printed (s : Solo L) (pb : List Broadcast) : Prop :=
  pb ++ s.hand.toList ++ s.chan ++ s.sends = s.editor.core.out ∧ notesIn s.out = forClient pb

theorem printed_hand {b : Broadcast} {pb : List Broadcast} (hp : Printed s pb) (hh : s.hand = some b) :
    Printed { s with hand := none, out := if b.shouldNotify Standalone.client then s.out ++ [.note b.note] else s.out } (pb ++ [b]) := by
  refine ⟨by rw [← hp.1, hh]; simp, ?_⟩
  rw [forClient_append]
  dsimp only
  split
  · rename_i hn
    have hn' : b.shouldNotify 1 = true := hn
    rw [notes_append, hp.2]; simp [notesIn, forClient, hn']
  · rename_i hn
    have hn' : b.shouldNotify 1 = false := Bool.eq_false_iff.2 hn
    rw [hp.2]; simp [forClient, hn']

/-- The printing thread goes on until there is nothing left. -/
theorem drained {pb : List Broadcast} (he : s.ended = false) (hp : Printed s pb) :
    ∃ n t, Run n s t ∧ SamePlace s t ∧ t.sends = [] ∧ Printed t s.editor.core.out := by
  obtain ⟨k, hk⟩ : ∃ k, k = 3 * s.sends.length + 2 * s.chan.length + s.hand.toList.length := ⟨_, rfl⟩
  induction k using Nat.strongRecOn generalizing s pb with
  | _ k ih =>
    cases hh : s.hand with
    | some b =>
      obtain ⟨n, t, h1, h2, h3, h4⟩ := ih (3 * s.sends.length + 2 * s.chan.length) (by rw [hk, hh]; simp)
        (s := { s with hand := none, out := if b.shouldNotify Standalone.client then s.out ++ [.note b.note] else s.out })
        he (printed_hand hp hh) rfl
      exact ⟨n + 1, t, .cons (.print he hh) h1, ⟨h2.1, h2.2, h2.3, h2.4, h2.5, h2.6⟩, h3, h4⟩
    | none =>
      cases hc : s.chan with
      | cons b bs =>
        obtain ⟨n, t, h1, h2, h3, h4⟩ := ih (3 * s.sends.length + 2 * bs.length + 1) (by rw [hk, hh, hc]; simp; omega)
          (s := { s with hand := some b, chan := bs }) (pb := pb) he ⟨by rw [← hp.1, hh, hc]; simp, hp.2⟩ rfl
        exact ⟨n + 1, t, .cons (.receive he hh hc) h1, ⟨h2.1, h2.2, h2.3, h2.4, h2.5, h2.6⟩, h3, h4⟩
      | nil =>
        cases hs : s.sends with
        | cons b bs =>
          obtain ⟨n, t, h1, h2, h3, h4⟩ := ih (3 * bs.length + 2) (by rw [hk, hs, hh, hc]; simp; omega)
            (s := { s with sends := bs, chan := s.chan ++ [b] }) (pb := pb) he ⟨by rw [← hp.1, hs, hc]; simp, hp.2⟩
            (by simp [hc, hh])
          exact ⟨n + 1, t, .cons (.send hs (by rw [hc]; decide)) h1, ⟨h2.1, h2.2, h2.3, h2.4, h2.5, h2.6⟩, h3, h4⟩
        | nil =>
          refine ⟨0, s, .nil s, ⟨rfl, rfl, rfl, rfl, rfl, rfl⟩, hs, ?_⟩
          have : pb = s.editor.core.out := by rw [← hp.1, hh, hc, hs]; simp
          rw [← this]; exact hp

/-- The printing thread does only what it must: it keeps one notification in its hand and lets the channel be full. -/
def Lazy (s : Solo L) : Prop :=
  ∃ pb, Printed s pb ∧ s.chan.length ≤ 100 ∧ ((s.hand = none ∧ pb = []) ∨ (s.hand.isSome = true ∧ s.chan.length = 100))

theorem lazy_sends (he : s.ended = false) (hz : Lazy s) :
    ∃ n t, Run n s t ∧ SamePlace s t ∧ t.sends = [] ∧ Lazy t := by
  obtain ⟨bs, hb⟩ : ∃ bs, bs = s.sends := ⟨_, rfl⟩
  induction bs generalizing s with
  | nil => exact ⟨0, s, .nil s, ⟨rfl, rfl, rfl, rfl, rfl, rfl⟩, hb.symm, hz⟩
  | cons b bs ih =>
    have hs := hb.symm
    obtain ⟨pb, hp, hr, hcase⟩ := hz
    -- make room
    have room : ∃ n t, Run n s t ∧ SamePlace s t ∧ t.sends = b :: bs ∧ t.chan.length < 100 ∧
        ∃ pb, Printed t pb ∧ ((t.hand = none ∧ pb = []) ∨ (t.hand.isSome = true ∧ t.chan.length = 99)) := by
      rcases Nat.lt_or_ge s.chan.length 100 with hlt | hge
      · rcases hcase with hc | ⟨_, hc⟩
        · exact ⟨0, s, .nil s, ⟨rfl, rfl, rfl, rfl, rfl, rfl⟩, hs, hlt, pb, hp, .inl hc⟩
        · omega
      · cases hc : s.chan with
        | nil => rw [hc] at hge; simp at hge
        | cons x xs =>
          have hx : xs.length = 99 := by rw [hc] at hge hr; simp at hge hr; omega
          cases hh : s.hand with
          | none =>
            refine ⟨1, { s with hand := some x, chan := xs }, solo_one (.receive he hh hc), ⟨rfl, rfl, rfl, rfl, rfl, rfl⟩, hs, ?_, pb, ⟨?_, hp.2⟩, .inr ⟨rfl, hx⟩⟩
            · show xs.length < 100; omega
            · rw [← hp.1, hh, hc]; simp
          | some y =>
            have hp1 := printed_hand hp hh
            refine ⟨2, { s with hand := some x, chan := xs, out := if y.shouldNotify Standalone.client then s.out ++ [.note y.note] else s.out },
              .cons (.print he hh) (solo_one (.receive he rfl hc)), ⟨rfl, rfl, rfl, rfl, rfl, rfl⟩, hs, ?_, pb ++ [y], ⟨?_, hp1.2⟩, .inr ⟨rfl, hx⟩⟩
            · show xs.length < 100; omega
            · rw [← hp.1, hh, hc]; simp
    obtain ⟨n, t, h1, h2, h3, h4, pb', h5, h6⟩ := room
    obtain ⟨m, u, g1, g2, g3, g4⟩ := ih (s := { t with sends := bs, chan := t.chan ++ [b] }) (h2.ended.trans he)
      ⟨pb', ⟨by rw [← h5.1, h3]; simp, h5.2⟩, by simp; omega, by
        rcases h6 with h6 | ⟨h6, h7⟩
        · exact .inl h6
        · exact .inr ⟨h6, by simp [h7]⟩⟩ rfl
    obtain ⟨k, hk⟩ := solo_append h1 (.cons (.send h3 h4) g1)
    exact ⟨k, u, hk, ⟨g2.1.trans h2.1, g2.2.trans h2.2, g2.3.trans h2.3, g2.4.trans h2.4, g2.5.trans h2.5, g2.6.trans h2.6⟩, g3, g4⟩

/-- The main thread goes through, with a printing thread that keeps to `Q`. -/
theorem solo_through {Q : Solo L → Prop}
    (flush : ∀ s, s.ended = false → Q s → ∃ n t, Run n s t ∧ SamePlace s t ∧ t.sends = [] ∧ Q t)
    (keep : ∀ s t : Solo L, Q s → s.sends = [] → t.hand = s.hand → t.chan = s.chan → notesIn t.out = notesIn s.out →
      s.editor.core.out ++ t.sends = t.editor.core.out → Q t)
    (hin : ∀ x ∈ s.input, Appending x.1.lua) (hlast : Appending s.last.lua)
    (hq : Q s) (he : s.ended = false) (hl : s.left = false) {e e' : Ced.Editor L} {rs : List Response}
    (ha : answered s.editor s.input = .ok (e, rs)) (hr : e.removeClient s.last 1 = .ok e') :
    ∃ n t, Run n s t ∧ Q t ∧ t.ended = false ∧ t.left = true ∧ t.sends = [] ∧ t.editor = e' := by
  -- the answer of the last line is printed
  have settle : ∀ s : Solo L, s.ended = false → Q s → ∃ n t, Run n s t ∧ Q t ∧ t.sends = [] ∧ t.reply = none ∧
      t.editor = s.editor ∧ t.input = s.input ∧ t.last = s.last ∧ t.left = s.left ∧ t.ended = false := by
    intro s he hq
    obtain ⟨n, t, h1, h2, h3, h4⟩ := flush s he hq
    cases hy : t.reply with
    | none => exact ⟨n, t, h1, h4, h3, hy, h2.editor, h2.input, h2.last, h2.left, h2.ended.trans he⟩
    | some r =>
      obtain ⟨k, hk⟩ := solo_append h1 (solo_one (.answer h3 hy))
      refine ⟨k, _, hk, keep t _ h4 h3 rfl rfl ?_ ?_, h3, rfl, h2.editor, h2.input, h2.last, h2.left, h2.ended.trans he⟩
      · rw [notes_append]; simp [notesIn]
      · rw [h3]; simp
  obtain ⟨ls, hls⟩ : ∃ ls, ls = s.input := ⟨_, rfl⟩
  induction ls generalizing s rs with
  | nil =>
    obtain ⟨n, t, h1, h2, h3, h4, h5, h6, h7, h8, h9⟩ := settle s he hq
    rw [← hls] at ha
    cases ha
    rw [← h5, ← h7] at hr
    have hp := drop_out (Editor.removeClient_prefix (by rw [h7]; exact hlast) hr)
    have st := Step.leave h3 h4 (h6.trans hls.symm) (h8.trans hl) hr
    have hq' := keep t { t with editor := e', left := true, sends := e'.core.out.drop t.editor.core.out.length } h2 h3 rfl rfl rfl hp
    obtain ⟨m, u, g1, g2, g3, g4⟩ := flush { t with editor := e', left := true, sends := e'.core.out.drop t.editor.core.out.length } h9 hq'
    obtain ⟨k, hk⟩ := solo_append h1 (.cons st g1)
    exact ⟨k, u, hk, g4, g2.ended.trans h9, g2.left, g3, g2.editor⟩
  | cons x ls ih =>
    obtain ⟨env, l⟩ := x
    obtain ⟨n, t, h1, h2, h3, h4, h5, h6, h7, h8, h9⟩ := settle s he hq
    rw [← hls] at ha
    unfold answered at ha
    obtain ⟨⟨e1, r⟩, a1, ha⟩ := bind_inv ha
    obtain ⟨⟨e2, rs2⟩, a2, ha⟩ := bind_inv ha
    cases ha
    rw [← h5] at a1
    have hp := drop_out (Editor.handle_prefix (hin (env, l) (by rw [← hls]; simp)) a1)
    have st := Step.line h3 h4 (h6.trans hls.symm) a1
    have hq' := keep t { t with editor := e1, input := ls, sends := e1.core.out.drop t.editor.core.out.length, reply := some r }
      h2 h3 rfl rfl rfl hp
    obtain ⟨m, u, g1, g2⟩ := ih (s := { t with editor := e1, input := ls, sends := e1.core.out.drop t.editor.core.out.length, reply := some r })
      (fun x hx => hin x (by rw [← hls]; exact List.mem_cons_of_mem _ hx)) (by show Appending t.last.lua; rw [h7]; exact hlast) hq' h9
      (h8.trans hl) a2 (by show e.removeClient t.last 1 = _; rw [h7]; exact hr) rfl
    obtain ⟨k, hk⟩ := solo_append h1 (.cons st g1)
    exact ⟨k, u, hk, g2⟩

/-- C101: whatever has happened so far, as long as the process has not ended, everything may still be printed: every response, and
every notification for the client. -/
theorem C101_completes {n : Nat} (hf : Standalone.fits e0 = true) (hl : AllAppend input0 last0)
    (h : Run n (Solo.start e0 input0 last0) s) (he : s.ended = false) {e e' : Ced.Editor L} {rs : List Response}
    (ha : answered e0 input0 = .ok (e, rs)) (hr : e.removeClient last0 1 = .ok e') :
    ∃ m t, Run m s t ∧ t.ended = true ∧ responsesIn t.out = rs ∧ notesIn t.out = forClient e'.core.out := by
  have i := alone_run hl h (alone_start input0 last0 hf)
  have finish : ∀ {t : Solo L} {pb : List Broadcast}, (∃ k, Run k s t) → t.ended = false → t.left = true → Printed t pb →
      ∃ m t, Run m s t ∧ t.ended = true ∧ responsesIn t.out = rs ∧ notesIn t.out = forClient e'.core.out := by
    intro t pb ⟨k, hk⟩ h1 h2 h3
    obtain ⟨m, u, g1, g2, g3, g4⟩ := drained h1 h3
    obtain ⟨k2, hk2⟩ := solo_append hk (g1)
    obtain ⟨k3, hk3⟩ := solo_append hk2 (solo_one (.exit (g2.left.trans h2) g3 (g2.ended.trans h1)))
    refine ⟨k3, _, hk3, rfl, ?_, ?_⟩
    all_goals
      obtain ⟨⟨e1, b1, b2⟩, _⟩ := C101_end hf hl (solo_append h hk3).choose_spec rfl
      rw [ha] at b1
      cases b1
    · rfl
    · rw [hr] at b2
      cases b2
      rw [show notesIn u.out = _ from g4.2, g2.editor]
  obtain ⟨done, e1, rs1, h1, h2, h3, h4, h5⟩ := i.lines
  obtain ⟨pb, t1, t2⟩ := i.told
  cases hx : s.left with
  | true => exact finish ⟨0, .nil s⟩ he hx ⟨t1, t2⟩
  | false =>
    have hs := h4 hx
    have split : ∀ {e0 : Ced.Editor L} {done later : List (EditorEnv L × Str)} {e1 e : Ced.Editor L} {rs1 rs : List Response},
        answered e0 done = .ok (e1, rs1) → answered e0 (done ++ later) = .ok (e, rs) → ∃ rs2, answered e1 later = .ok (e, rs2) := by
      intro e0 done
      induction done generalizing e0 with
      | nil => intro later e1 e rs1 rs a b; cases a; exact ⟨rs, b⟩
      | cons x done ih =>
        obtain ⟨env, l⟩ := x
        intro later e1 e rs1 rs a b
        unfold answered at a
        rw [List.cons_append] at b
        unfold answered at b
        obtain ⟨⟨e3, r3⟩, h3, a⟩ := bind_inv a
        obtain ⟨⟨e4, r4⟩, h4, a⟩ := bind_inv a
        cases a
        rw [h3] at b
        obtain ⟨⟨e5, r5⟩, h5, b⟩ := bind_inv b
        cases h5
        obtain ⟨⟨e6, r6⟩, h6, b⟩ := bind_inv b
        cases b
        exact ih h4 h6
    rw [h1] at ha
    obtain ⟨rs2, ha2⟩ := split h2 ha
    rw [← hs] at ha2
    obtain ⟨m, t, g1, ⟨pb', g2⟩, g3, g4, _, _⟩ := solo_through (Q := fun s => ∃ pb, Printed s pb)
      (fun s he ⟨pb, hq⟩ => by
        obtain ⟨n, t, h1, h2, h3, h4⟩ := drained he hq
        exact ⟨n, t, h1, h2, h3, _, h4⟩)
      (fun s t ⟨pb, hq⟩ hs h1 h2 h3 h4 => ⟨pb, by rw [← h4, ← hq.1, hs, h1, h2]; simp, h3.trans hq.2⟩)
      (fun x hx => hl.1 x (by rw [h1]; exact List.mem_append_right _ hx)) (by rw [i.last]; exact hl.2)
      ⟨pb, t1, t2⟩ he hx ha2 (by rw [i.last]; exact hr)
    rw [← h1] at ha
    exact finish ⟨m, g1⟩ g3 g4 g2

/-- C101, violated: no notification is lost.  For every session that does not crash there is a course of the two threads that ends
properly, all lines answered, where the last 101 notifications are not printed: those that are in the channel and in the hand of
the printing thread when the main thread ends; none at all if there are not more. -/
theorem C101_lost_refuted (hf : Standalone.fits e0 = true) (hl : AllAppend input0 last0) {e e' : Ced.Editor L} {rs : List Response}
    (ha : answered e0 input0 = .ok (e, rs)) (hr : e.removeClient last0 1 = .ok e') :
    ∃ n t, Run n (Solo.start e0 input0 last0) t ∧ t.ended = true ∧ responsesIn t.out = rs ∧
      notesIn t.out = forClient (e'.core.out.take (e'.core.out.length - 101)) := by
  obtain ⟨n, t, h1, ⟨pb, h2, h2r, h2c⟩, h3, h4, h5, h6⟩ := solo_through (Q := Lazy) (s := Solo.start e0 input0 last0)
    (fun s he hq => lazy_sends he hq)
    (fun s t ⟨pb, hq, hr, hc⟩ hs h1 h2 h3 h4 =>
      ⟨pb, ⟨by rw [← h4, ← hq.1, hs, h1, h2]; simp, h3.trans hq.2⟩, by rw [h2]; exact hr, by rw [h1, h2]; exact hc⟩)
    hl.1 hl.2 ⟨[], ⟨by simp [Solo.start], rfl⟩, of_decide_eq_true hf, .inl ⟨rfl, rfl⟩⟩ rfl rfl ha hr
  obtain ⟨k, hk⟩ := solo_append h1 (solo_one (.exit h4 h5 h3))
  obtain ⟨⟨e1, b1, b2⟩, _⟩ := C101_end hf hl hk rfl
  rw [ha] at b1
  refine ⟨k, _, hk, rfl, ?_, ?_⟩
  · cases b1; rfl
  · show notesIn t.out = _
    rw [h2.2, ← h6]
    congr 1
    have hp := h2.1
    rw [h5, List.append_nil] at hp
    rcases h2c with ⟨c1, c2⟩ | ⟨c1, c2⟩
    · rw [c2, c1] at hp
      have : t.editor.core.out.length ≤ 100 := by rw [← hp]; simpa using h2r
      rw [show t.editor.core.out.length - 101 = 0 by omega, c2]; simp
    · obtain ⟨y, hy⟩ := Option.isSome_iff_exists.1 c1
      rw [hy] at hp
      have hlen : t.editor.core.out.length = pb.length + 101 := by rw [← hp]; simp [c2]
      rw [hlen, ← hp]
      simp

/-! ## From the command line on -/

theorem open_fits {env : EditorEnv L} {files : List Str} : ∀ {e2 e : Ced.Editor L},
    Standalone.openFiles env e2 files = .ok (.ready e) → Standalone.fits e2 = true → Standalone.fits e = true := by
  induction files with
  | nil => intro e2 e h hf; cases h; exact hf
  | cons f fs ih =>
    intro e2 e h hf
    unfold Standalone.openFiles at h
    obtain ⟨⟨e3, a⟩, _, h⟩ := bind_inv h
    dsimp only at h
    split at h
    · rename_i hf3; exact ih h hf3
    · cases h

theorem ready_fits {env : EditorEnv L} {lua : L} {pre : Script L} {cwd : Ced.Path} {args cwdText : Str} {files : List Str} {e : Ced.Editor L}
    (h : Standalone.start env lua pre cwd args cwdText files = .ok (.ready e)) : Standalone.fits e = true := by
  unfold Standalone.start at h
  obtain ⟨e1, _, h⟩ := bind_inv h
  obtain ⟨e2, _, h⟩ := bind_inv h
  split at h
  · rename_i hf; exact open_fits h hf
  · cases h

/-- C101, violated, for ced as it is: every standalone session with its scripts, which starts and does not crash, can end properly
with the last 101 notifications not printed. -/
theorem C101_ced_refuted {eng : LuaEngine} {env : EditorEnv LuaState} (std : Standard eng env) {lua : LuaState} {cwd : Ced.Path}
    {args cwdText : Str} {files input : List Str} {e e' : Ced.Editor LuaState} {rs : List Response}
    (h : Standalone.start env lua (Scripts.prelude eng) cwd args cwdText files = .ok (.ready e))
    (hs : Standalone.session env e input = .ok (e', rs)) :
    ∃ n t, Run n (Solo.start e (input.map fun l => (env, l)) env) t ∧ t.ended = true ∧ responsesIn t.out = rs ∧
      notesIn t.out = forClient (e'.core.out.take (e'.core.out.length - 101)) := by
  have ap := standard_appends std
  unfold Standalone.session at hs
  obtain ⟨⟨e1, rs1⟩, h1, hs⟩ := bind_inv hs
  obtain ⟨e2, h2, hs⟩ := bind_inv hs
  cases hs
  refine C101_lost_refuted (ready_fits h) ⟨fun x hx => ?_, ap⟩ (by rw [answered_lines]; exact h1) h2
  obtain ⟨l, _, rfl⟩ := List.mem_map.1 hx
  exact ap

/-- A session of ced that starts with two files and has two lines of input: seven notifications and two responses; all seven can
be lost. -/
example : (match standaloneA 2 with
    | .ok (.ready e) => (Standalone.session cedEnv e [editLine, str!"x"]).toOption.map fun x => (x.1.core.out.length, x.2.length)
    | _ => none) = some (7, 2) := by decide +kernel

end Ced.Props

import Verif.Model.Hangup
import Verif.Props.Printing
import Verif.Props.Batch

/-! # C107: a standalone session whose output nobody reads any more -/

namespace Ced.Props
open Spec

namespace Hangup
open Piped
variable {L : Type} {e0 : Ced.Editor L} {input0 : List (EditorEnv L × Str)} {last0 : EditorEnv L} {p q : Piped L}

theorem solo_snoc {m : Nat} {s t u : Solo L} (h : Solo.Run m s t) (hs : Solo.Step t u) : Solo.Run (m + 1) s u :=
  run_exact h (solo_one hs)

/-- The reader has gone away after some steps of the session of C101. -/
def Split (s0 : Solo L) (n : Nat) (p : Piped L) : Prop :=
  (p.reader = true ∧ p.printer = true ∧ p.crashed = false ∧ Solo.Run n s0 p.solo) ∨
  ∃ m k s, n = m + 1 + k ∧ s.ended = false ∧ Solo.Run m s0 s ∧ p.reader = false ∧ Run k ⟨s, false, true, false⟩ p

theorem run_snoc {n : Nat} {p q r : Piped L} (h : Run n p q) (hs : Step q r) : Run (n + 1) p r := by
  induction h with
  | nil => exact .cons hs (.nil _)
  | cons h1 _ ih => exact .cons h1 (ih hs)

theorem run_trans {m n : Nat} {p q r : Piped L} (h1 : Run m p q) (h2 : Run n q r) : Run (m + n) p r := by
  induction h1 with
  | nil => rw [Nat.zero_add]; exact h2
  | cons hs _ ih => rw [Nat.add_right_comm]; exact .cons hs (ih h2)

theorem reader_step (h : Step p q) (hr : p.reader = false) : q.reader = false := by
  cases h with
  | runs a _ => rw [hr] at a; cases a
  | closes => rfl
  | _ => exact hr

theorem reader_run {n : Nat} (h : Run n p q) (hr : p.reader = false) : q.reader = false := by
  induction h with
  | nil => exact hr
  | cons hs _ ih => exact ih (reader_step hs hr)

theorem split_step {s0 : Solo L} {n : Nat} (i : Split s0 n p) (h : Step p q) : Split s0 (n + 1) q := by
  rcases i with ⟨a, b, c, d⟩ | ⟨m, k, s, e1, e2, e3, e4, e5⟩
  · cases h with
    | runs _ hs => exact .inl ⟨a, b, c, solo_snoc d hs⟩
    | closes _ he =>
      refine .inr ⟨n, 0, p.solo, rfl, he, d, rfl, ?_⟩
      rw [show ({ p with reader := false } : Piped L) = ⟨p.solo, false, true, false⟩ by rw [← b, ← c]]
      exact .nil _
    | line x => rw [a] at x; cases x
    | send x => rw [a] at x; cases x
    | unsent x => rw [a] at x; cases x
    | unanswered x => rw [a] at x; cases x
    | leave x => rw [a] at x; cases x
    | exit x => rw [a] at x; cases x
    | receive x => rw [a] at x; cases x
    | skip x => rw [a] at x; cases x
    | dies x => rw [a] at x; cases x
  · exact .inr ⟨m, k + 1, s, by omega, e2, e3, reader_step h e4, run_snoc e5 h⟩

theorem split_run {s0 : Solo L} {m n : Nat} (h : Run n p q) (i : Split s0 m p) : Split s0 (m + n) q := by
  induction h generalizing m with
  | nil => exact i
  | cons hs _ ih => have := ih (split_step i hs); rw [Nat.add_right_comm] at this; exact this

theorem split {n : Nat} (h : Run n (start e0 input0 last0) p) : Split (Solo.start e0 input0 last0) n p := by
  have := split_run (m := 0) h (.inl ⟨rfl, rfl, rfl, .nil _⟩)
  rw [Nat.zero_add] at this
  exact this

/-- What stays when nobody reads: nothing is printed, and at most one line is treated. -/
structure Unheard (p q : Piped L) : Prop where
  out : q.solo.out = p.solo.out
  last : q.solo.last = p.solo.last
  lines : q.solo.input = p.solo.input ∨ ∃ x, p.solo.input = x :: q.solo.input ∧ q.solo.reply.isSome = true
  reply : p.solo.reply.isSome = true → q.solo.reply.isSome = true ∧ q.solo.input = p.solo.input

theorem unheard_step {r : Piped L} (hr : q.reader = false) (i : Unheard p q) (h : Step q r) : Unheard p r := by
  obtain ⟨i1, i0, i2, i3⟩ := i
  cases h with
  | runs a _ => rw [hr] at a; cases a
  | closes a _ => rw [hr] at a; cases a
  | line _ _ a b c d =>
    refine ⟨i1, i0, ?_, fun h => ?_⟩
    · rcases i2 with i2 | ⟨x, _, i2⟩
      · exact .inr ⟨_, i2.symm.trans c, rfl⟩
      · rw [b] at i2; cases i2
    · have := (i3 h).1
      rw [b] at this; cases this
  | _ => exact ⟨i1, i0, i2, i3⟩

theorem unheard_run {n : Nat} {r : Piped L} (h : Run n q r) (hr : q.reader = false) (i : Unheard p q) : Unheard p r := by
  induction h with
  | nil => exact i
  | cons hs _ ih => exact ih (reader_step hs hr) (unheard_step hr i hs)

theorem unheard {n : Nat} (h : Run n p q) (hr : p.reader = false) : Unheard p q :=
  unheard_run h hr ⟨rfl, rfl, .inl rfl, fun h => ⟨h, rfl⟩⟩

/-- C107: when nobody reads the output any more, nothing is printed, and at most one more line is treated. -/
theorem C107_unheard {n : Nat} (h : Run n p q) (hr : p.reader = false) :
    q.solo.out = p.solo.out ∧ ∃ more, more.length ≤ 1 ∧ p.solo.input = more ++ q.solo.input := by
  obtain ⟨h1, _, h2, _⟩ := unheard h hr
  refine ⟨h1, ?_⟩
  rcases h2 with h2 | ⟨x, h2, _⟩
  · exact ⟨[], Nat.zero_le _, h2.symm⟩
  · exact ⟨[x], Nat.le_refl _, h2⟩

/-- The environments to come are those of the input. -/
theorem out_step (hl : AllAppend input0 last0) (hi : ∀ x ∈ p.solo.input, x ∈ input0) (hla : p.solo.last = last0) (hr : p.reader = false)
    (h : Step p q) :
    (∀ x ∈ q.solo.input, x ∈ input0) ∧ q.solo.last = last0 ∧ p.solo.editor.core.out <+: q.solo.editor.core.out := by
  cases h with
  | runs a _ => rw [hr] at a; cases a
  | closes a _ => rw [hr] at a; cases a
  | @line env l ls e r _ _ a b c d =>
    refine ⟨fun x hx => hi x (by rw [c]; exact List.mem_cons_of_mem _ hx), hla, ?_⟩
    exact Editor.handle_prefix (hl.1 (env, l) (hi _ (by rw [c]; exact List.mem_cons_self ..))) d
  | leave _ _ _ _ _ _ f => exact ⟨hi, hla, Editor.removeClient_prefix hl.2 (by rw [← hla]; exact f)⟩
  | _ => exact ⟨hi, hla, List.prefix_rfl⟩

theorem out_run {n : Nat} (hl : AllAppend input0 last0) (h : Run n p q) (hi : ∀ x ∈ p.solo.input, x ∈ input0) (hla : p.solo.last = last0)
    (hr : p.reader = false) : p.solo.editor.core.out <+: q.solo.editor.core.out := by
  induction h with
  | nil => exact List.prefix_rfl
  | cons hs _ ih =>
    obtain ⟨a, b, c⟩ := out_step hl hi hla hr hs
    exact c.trans (ih a b (reader_step hs hr))

/-- C107: what was printed until then is what C101 says: some of the lines are treated, in order; their responses are printed in
that order, each once; among them the beginning of the notifications for the client, in order, each once and whole. -/
theorem C107_output {n : Nat} (hf : Standalone.fits e0 = true) (hl : AllAppend input0 last0) (h : Run n (start e0 input0 last0) p) :
    (∃ done later e rs, input0 = done ++ later ∧ answered e0 done = .ok (e, rs) ∧
      responsesIn p.solo.out <+: rs ∧ rs.length ≤ (responsesIn p.solo.out).length + 1) ∧
    notesIn p.solo.out <+: forClient p.solo.editor.core.out := by
  rcases split h with ⟨_, _, _, h⟩ | ⟨m, k, s, _, _, h, _, hk⟩
  · exact C101_output hf hl h
  · obtain ⟨h1, h2⟩ := C101_output hf hl h
    have u := unheard hk rfl
    rw [u.out]
    refine ⟨h1, h2.trans ?_⟩
    have i := alone_run hl h (alone_start input0 last0 hf)
    obtain ⟨done, _, _, e1, _⟩ := i.lines
    obtain ⟨t, ht⟩ := out_run hl hk (fun x hx => by rw [e1]; exact List.mem_append_right _ hx) i.last rfl
    rw [← ht, forClient_append]
    exact List.prefix_append ..

theorem answered_length {e e' : Ced.Editor L} {ls : List (EditorEnv L × Str)} {rs : List Response} (h : answered e ls = .ok (e', rs)) :
    rs.length = ls.length := by
  induction ls generalizing e rs with
  | nil => cases h; rfl
  | cons x ls ih =>
    obtain ⟨env, l⟩ := x
    unfold answered at h
    obtain ⟨⟨e1, r1⟩, _, h⟩ := bind_inv h
    obtain ⟨⟨e2, r2⟩, h2, h⟩ := bind_inv h
    cases h
    simp [ih h2]

/-- A line that is not answered will not be: then the main thread does not come to its end. -/
theorem waits_run {n : Nat} (h : Run n p q) (hr : p.reader = false) (hw : p.solo.input ≠ [] ∨ p.solo.reply.isSome = true)
    (he : p.solo.ended = false) (hlf : p.solo.left = false) :
    (q.solo.input ≠ [] ∨ q.solo.reply.isSome = true) ∧ q.solo.ended = false ∧ q.solo.left = false := by
  induction h with
  | nil => exact ⟨hw, he, hlf⟩
  | cons hs _ ih =>
    refine ih (reader_step hs hr) ?_ ?_ ?_
    all_goals cases hs with
      | runs a _ => rw [hr] at a; cases a
      | closes a _ => rw [hr] at a; cases a
      | line => first | exact .inr rfl | exact he | exact hlf
      | leave _ _ _ a b _ _ => rw [a, b] at hw; simp at hw
      | exit _ _ a => rw [hlf] at a; cases a
      | _ => first | exact hw | exact he | exact hlf

/-- C107: if some line was not yet answered when the reader went away, the process does not end properly. -/
theorem C107_unanswered {m n : Nat} (hf : Standalone.fits e0 = true) (hl : AllAppend input0 last0) (h : Run m (start e0 input0 last0) p)
    (hr : p.reader = false) (hw : (responsesIn p.solo.out).length < input0.length) (h' : Run n p q) : q.solo.ended = false := by
  rcases split h with ⟨a, _⟩ | ⟨_, k, s, _, he, hs, _, hk⟩
  · rw [hr] at a; cases a
  · have i := alone_run hl hs (alone_start input0 last0 hf)
    obtain ⟨done, e, rs, e1, e2, e3, _, e5⟩ := i.lines
    have u := unheard hk rfl
    have hn := answered_length e2
    have hw' : s.input ≠ [] ∨ s.reply.isSome = true := by
      cases hx : s.reply with
      | some r => exact .inr rfl
      | none =>
        refine .inl fun hi => ?_
        rw [hx, Option.toList, List.append_nil] at e3
        rw [hi, List.append_nil] at e1
        rw [u.out, ← e3, hn, ← e1] at hw
        exact Nat.lt_irrefl _ hw
    have hlf : s.left = false := by
      cases hx : s.left with
      | false => rfl
      | true =>
        obtain ⟨a, b, _⟩ := e5 hx
        rw [a, b] at hw'
        simp at hw'
    exact (waits_run (run_trans hk h') rfl hw' he hlf).2.1

/-- All the lines are answered, and the client's leaving sends nothing: the main thread has nothing to send or to print. -/
structure Calmly (e1 : Ced.Editor L) (last : EditorEnv L) (p : Piped L) : Prop where
  fine : p.crashed = false
  input : p.solo.input = []
  reply : p.solo.reply = none
  sends : p.solo.sends = []
  last : p.solo.last = last
  editor : p.solo.left = false → p.solo.editor = e1

theorem calmly_step {e1 : Ced.Editor L} {last : EditorEnv L} (hq : ∀ e', e1.removeClient last 1 = .ok e' → e'.core.out = e1.core.out)
    (hr : p.reader = false) (c : Calmly e1 last p) (h : Step p q) : Calmly e1 last q := by
  obtain ⟨c1, c2, c3, c4, c5, c6⟩ := c
  cases h with
  | runs a _ => rw [hr] at a; cases a
  | closes a _ => rw [hr] at a; cases a
  | line _ _ _ _ c => rw [c2] at c; cases c
  | send _ _ _ a => rw [c4] at a; cases a
  | unsent _ _ _ a => rw [c4] at a; cases a
  | unanswered _ _ _ a => rw [c3] at a; cases a
  | @leave e _ _ _ _ _ d f =>
    refine ⟨c1, c2, c3, ?_, c5, fun h => by cases h⟩
    rw [c6 d, c5] at f
    show e.core.out.drop p.solo.editor.core.out.length = []
    rw [hq e f, c6 d, List.drop_length]
  | _ => exact ⟨c1, c2, c3, c4, c5, c6⟩

/-- The main thread sends only before it answers, and what the client's leaving sends. -/
def Sends (e0 : Ced.Editor L) (input0 : List (EditorEnv L × Str)) (s : Solo L) : Prop :=
  (s.reply = none → s.left = false → s.sends = []) ∧
  (s.left = true → ∀ e rs, answered e0 input0 = .ok (e, rs) → s.sends.length + e.core.out.length ≤ s.editor.core.out.length)

theorem sends_run {n : Nat} {s t : Solo L} (hl : AllAppend input0 last0) (h : Solo.Run n s t) (i : AloneOk e0 input0 last0 s)
    (hs : Sends e0 input0 s) : Sends e0 input0 t := by
  induction h with
  | nil => exact hs
  | @cons n s t u h1 _ ih =>
    refine ih (alone_step hl i h1) ?_
    obtain ⟨hs1, hs2⟩ := hs
    cases h1 with
    | @line env l ls e' r a b c d =>
      refine ⟨fun hr => (by cases hr), fun hx => ?_⟩
      obtain ⟨_, _, _, _, _, _, _, h5⟩ := i.lines
      rw [(h5 hx).1] at c; cases c
    | send a =>
      refine ⟨fun hr hx => (by rw [hs1 hr hx] at a; cases a), fun hx e rs he => ?_⟩
      have := hs2 hx e rs he
      rw [a, List.length_cons] at this
      dsimp only
      omega
    | answer a => exact ⟨fun _ _ => a, hs2⟩
    | @leave e' a b c d f =>
      refine ⟨fun _ hx => (by cases hx), fun _ e rs he => ?_⟩
      rw [i.last] at f
      have hp := congrArg List.length (drop_out (Editor.removeClient_prefix hl.2 f))
      rw [List.length_append] at hp
      obtain ⟨done, e1, rs1, h1, h2, _, h4, _⟩ := i.lines
      rw [c, List.append_nil] at h1
      rw [h1, h2] at he
      cases he
      rw [← h4 d]
      dsimp only
      omega
    | _ => exact ⟨hs1, hs2⟩

/-- C107: if all the lines were answered when the reader went away, and if the client's leaving sends nothing, the main thread does
not panic. -/
theorem C107_answered {m n : Nat} (hf : Standalone.fits e0 = true) (hl : AllAppend input0 last0) (h : Run m (start e0 input0 last0) p)
    (hr : p.reader = false) (hw : (responsesIn p.solo.out).length = input0.length)
    (hq : ∀ e rs e', answered e0 input0 = .ok (e, rs) → e.removeClient last0 1 = .ok e' → e'.core.out = e.core.out)
    (h' : Run n p q) : q.crashed = false := by
  rcases split h with ⟨a, _⟩ | ⟨_, k, s, _, he, hs, _, hk⟩
  · rw [hr] at a; cases a
  · have i := alone_run hl hs (alone_start input0 last0 hf)
    obtain ⟨done, e, rs, e1, e2, e3, e4, e5⟩ := i.lines
    have u := unheard hk rfl
    have hn := answered_length e2
    have hrs := congrArg List.length e3
    have hin := congrArg List.length e1
    rw [List.length_append] at hrs hin
    rw [u.out] at hw
    have hi : s.input = [] := by
      apply List.eq_nil_of_length_eq_zero
      simp only at hw
      omega
    have hrp : s.reply = none := by
      cases hx : s.reply with
      | none => rfl
      | some r => rw [hx] at hrs; simp at hrs hw; omega
    rw [hi, List.append_nil] at e1
    rw [← e1] at e2
    have c : Calmly e last0 ⟨s, false, true, false⟩ := by
      refine ⟨rfl, hi, hrp, ?_, i.last, fun h => e4 h⟩
      obtain ⟨k1, k2⟩ := sends_run hl hs (alone_start input0 last0 hf) ⟨fun _ _ => rfl, fun h => (by cases h)⟩
      cases hx : s.left with
      | false => exact k1 hrp hx
      | true =>
        have h1 := k2 hx e rs e2
        rw [hq e rs s.editor e2 (e5 hx).2.2] at h1
        apply List.eq_nil_of_length_eq_zero
        show s.sends.length = 0
        omega
    have : ∀ {n : Nat} {p q : Piped L}, Run n p q → p.reader = false → Calmly e last0 p → Calmly e last0 q := by
      intro n p q h
      induction h with
      | nil => exact fun _ c => c
      | cons hs _ ih => exact fun hr c => ih (reader_step hs hr) (calmly_step (fun e' => hq e rs e' e2) hr c hs)
    exact (this (run_trans hk h') rfl c).fine

/-! ## The process comes to an end -/

/-- C107: the threads do not wait for ever: one of them can go on until the process has ended, properly or by a panic - unless the
editor crashes at the next line, or at the end of the input. -/
theorem C107_progress {n : Nat} (hf : Standalone.fits e0 = true) (hl : AllAppend input0 last0) (h : Run n (start e0 input0 last0) p)
    (hr : p.reader = false) (he : p.solo.ended = false) (hc : p.crashed = false) (hstuck : ¬ ∃ q, Step p q) :
    (∃ env l ls k, p.solo.input = (env, l) :: ls ∧ p.solo.editor.handle env 1 l = .error k) ∨
    (p.solo.input = [] ∧ p.solo.left = false ∧ ∃ k, p.solo.editor.removeClient last0 1 = .error k) := by
  have hlast : p.solo.last = last0 := by
    rcases split h with ⟨a, _⟩ | ⟨_, k, s, _, _, hs, _, hk⟩
    · rw [hr] at a; cases a
    · exact (unheard hk rfl).last.trans (alone_run hl hs (alone_start input0 last0 hf)).last
  have hsends : p.solo.sends = [] := by
    cases hs : p.solo.sends with
    | nil => rfl
    | cons b bs =>
      cases hp : p.printer with
      | false => exact absurd ⟨_, Step.unsent hr hc hp hs⟩ hstuck
      | true =>
        cases hh : p.solo.hand with
        | some d =>
          cases hn : d.shouldNotify 1 with
          | false => exact absurd ⟨_, Step.skip hr hc hp he hh hn⟩ hstuck
          | true => exact absurd ⟨_, Step.dies hr hc hp he hh hn⟩ hstuck
        | none =>
          cases hx : p.solo.chan with
          | cons d ds => exact absurd ⟨_, Step.receive hr hc hp he hh hx⟩ hstuck
          | nil => exact absurd ⟨_, Step.send hr hc hp hs (by rw [hx]; decide)⟩ hstuck
  have hreply : p.solo.reply = none := by
    cases hx : p.solo.reply with
    | none => rfl
    | some r => exact absurd ⟨_, Step.unanswered hr hc hsends hx⟩ hstuck
  have hleft : p.solo.left = false := by
    cases hx : p.solo.left with
    | false => rfl
    | true => exact absurd ⟨_, Step.exit hr hc hx hsends he⟩ hstuck
  cases hin : p.solo.input with
  | nil =>
    refine .inr ⟨rfl, hleft, ?_⟩
    cases hx : p.solo.editor.removeClient last0 1 with
    | error k => exact ⟨k, rfl⟩
    | ok e => exact absurd ⟨_, Step.leave hr hc hsends hreply hin hleft (by rw [hlast]; exact hx)⟩ hstuck
  | cons x ls =>
    obtain ⟨env, l⟩ := x
    refine .inl ⟨env, l, ls, ?_⟩
    cases hx : p.solo.editor.handle env 1 l with
    | error k => exact ⟨k, rfl, rfl⟩
    | ok y => exact absurd ⟨_, Step.line hr hc hsends hreply hin hx⟩ hstuck

/-- The steps that are left. -/
def left (p : Piped L) : Nat :=
  3 * p.solo.sends.length + 2 * p.solo.chan.length + p.solo.hand.toList.length + p.solo.reply.toList.length + 2 * p.solo.input.length +
    (!p.solo.left).toNat + (!p.solo.ended).toNat + (!p.crashed).toNat

theorem left_step (hl : AllAppend input0 last0) (hi : ∀ x ∈ p.solo.input, x ∈ input0) (hla : p.solo.last = last0) (hr : p.reader = false)
    (h : Step p q) : 1 + left q + 3 * p.solo.editor.core.out.length ≤ left p + 3 * q.solo.editor.core.out.length := by
  unfold left
  cases h with
  | runs a _ => rw [hr] at a; cases a
  | closes a _ => rw [hr] at a; cases a
  | @line env l ls e r _ _ a b c d =>
    have hp := congrArg List.length (drop_out (Editor.handle_prefix (hl.1 (env, l) (hi _ (by rw [c]; exact List.mem_cons_self ..))) d))
    rw [List.length_append] at hp
    rw [a, b, c]
    simp only [List.length_cons, List.length_nil, Option.toList]
    omega
  | send _ _ _ a _ => rw [a]; simp only [List.length_append, List.length_cons, List.length_nil]; omega
  | unsent _ c _ _ => rw [c]; simp only [Bool.not_true, Bool.not_false, Bool.toNat_true, Bool.toNat_false]; omega
  | unanswered _ c _ _ => rw [c]; simp only [Bool.not_true, Bool.not_false, Bool.toNat_true, Bool.toNat_false]; omega
  | @leave e _ _ a b c d f =>
    rw [hla] at f
    have hp := congrArg List.length (drop_out (Editor.removeClient_prefix hl.2 f))
    rw [List.length_append] at hp
    rw [a, d]
    simp only [Bool.not_true, Bool.not_false, Bool.toNat_true, Bool.toNat_false, List.length_nil]
    omega
  | exit _ _ _ _ c => rw [c]; simp only [Bool.not_true, Bool.not_false, Bool.toNat_true, Bool.toNat_false]; omega
  | receive _ _ _ _ c d => rw [c, d]; simp only [Option.toList, List.length_cons, List.length_nil]; omega
  | skip _ _ _ _ c _ => rw [c]; simp only [Option.toList, List.length_cons, List.length_nil]; omega
  | dies _ _ _ _ c _ => rw [c]; simp only [Option.toList, List.length_cons, List.length_nil]; omega

theorem left_run {n : Nat} (hl : AllAppend input0 last0) (h : Run n p q) (hi : ∀ x ∈ p.solo.input, x ∈ input0) (hla : p.solo.last = last0)
    (hr : p.reader = false) : n + left q + 3 * p.solo.editor.core.out.length ≤ left p + 3 * q.solo.editor.core.out.length := by
  induction h with
  | nil => omega
  | cons hs _ ih =>
    obtain ⟨a, b, _⟩ := out_step hl hi hla hr hs
    have := ih a b (reader_step hs hr)
    have := left_step hl hi hla hr hs
    omega

/-- C107: and not for ever: two steps for each line, three for each notification, and four more are enough. -/
theorem C107_bounded {n : Nat} (hf : Standalone.fits e0 = true) (hl : AllAppend input0 last0) (h : Run n (start e0 input0 last0) p) :
    n ≤ 2 * input0.length + 3 * p.solo.editor.core.out.length + 4 := by
  rcases split h with ⟨_, _, _, h⟩ | ⟨m, k, s, hn, _, h, _, hk⟩
  · have := C101_bounded hf hl h
    omega
  · have i := alone_run hl h (alone_start input0 last0 hf)
    obtain ⟨done, _, _, e1, _⟩ := i.lines
    have h2 := left_run hl hk (fun x hx => by rw [e1]; exact List.mem_append_right _ hx) i.last rfl
    have h1 := steps_count hl h (alone_start input0 last0 hf)
    simp only [Solo.start, List.length_nil, Option.toList_none, Bool.toNat_false] at h1
    simp only [left, Bool.not_false, Bool.toNat_true] at h2
    have a : s.left.toNat + (!s.left).toNat = 1 := by cases s.left <;> rfl
    have b : s.ended.toNat + (!s.ended).toNat = 1 := by cases s.ended <;> rfl
    omega

/-! ## The leaving of the only client -/

/-- When the only client of a session under the rules leaves, nothing is sent. -/
theorem leave_silent {R : Rules} {H : World → Prop} (ro : RulesOk R H) {eng : LuaEngine} {env : EditorEnv LuaState} (ok : SafeEnv R eng env)
    {e e' : Ced.Editor LuaState} (hh : Housed R e) (h : e.removeClient env 1 = .ok e') : e'.core.out = e.core.out := by
  obtain ⟨s, hs, hi, rfl⟩ := hh
  obtain ⟨hc, hk⟩ := safe_server ro hs
  have inv := World.inv_history ordinary_clean (ro.history hk)
  have only : ∀ c ctx, s.editor.core.clients.map.get c = some ctx → c = 1 := by
    intro c ctx hx
    have := ((C68_clients hc).2 c).2 ⟨ctx, hx⟩
    rw [hi] at this
    simpa using this
  have hin : 1 ∈ s.editor.core.clients.stack := by
    refine (inv.cstack 1).2 (Assoc.has_iff.2 (((C68_clients hc).2 1).1 ?_))
    rw [hi]; exact List.mem_cons_self ..
  have hmap : (s.editor.core.clients.remove 1).1.map = [] := by
    have : (s.editor.core.clients.remove 1).1.map = s.editor.core.clients.map.del 1 := by
      unfold StackMap.remove
      cases hx : s.editor.core.clients.stack.findIdx? (· = 1) with
      | some idx => rfl
      | none =>
        have := (List.findIdx?_eq_none_iff.1 hx) 1 hin
        simp at this
    rw [this]
    have none : ∀ c, (s.editor.core.clients.map.del 1).get c = none := by
      intro c
      rw [Assoc.get_del]
      split
      · rfl
      · rename_i hne
        cases hx : s.editor.core.clients.map.get c with
        | none => rfl
        | some ctx => exact absurd (only c ctx hx) hne
    cases hm : s.editor.core.clients.map.del 1 with
    | nil => rfl
    | cons x t =>
      have := none x.1
      rw [hm] at this
      simp [Assoc.get] at this
  obtain ⟨_, h⟩ := remove_state ok.std h
  unfold World.removeClient World.debug at h
  dsimp only at h
  split at h
  · unfold World.appendTo at h
    have silent : ∀ w : World, w.clients.map = [] → w.notifyViewUpdate env.core (w.clientsWithBuffer BUFFER_DEBUG) = .ok e'.core →
        e'.core.out = w.out := by
      intro w hw hn
      have : w.clientsWithBuffer BUFFER_DEBUG = [] := by
        unfold World.clientsWithBuffer
        rw [hw]
        split <;> rfl
      rw [this] at hn
      have hn : w.viewUpdate [] = e'.core := Except.ok.inj hn
      rw [← hn]
      rfl
    have := silent _ ?_ h
    · rw [this]; split <;> rfl
    · split <;> exact hmap
  · have h := Except.ok.inj h
    rw [← h]

/-! ## Sessions under the rules -/

/-- Where the editor is. -/
def Where (e0 : Ced.Editor L) (input0 : List (EditorEnv L × Str)) (last0 : EditorEnv L) (s : Solo L) : Prop :=
  s.last = last0 ∧ ∃ done e rs, input0 = done ++ s.input ∧ answered e0 done = .ok (e, rs) ∧
    (s.left = false → s.editor = e) ∧ (s.left = true → s.input = [] ∧ e.removeClient last0 1 = .ok s.editor)

theorem where_step (hr : p.reader = false) (i : Where e0 input0 last0 p.solo) (h : Step p q) : Where e0 input0 last0 q.solo := by
  obtain ⟨i0, done, e, rs, i1, i2, i3, i4⟩ := i
  cases h with
  | runs a _ => rw [hr] at a; cases a
  | closes a _ => rw [hr] at a; cases a
  | @line env l ls e' r _ _ a b c d =>
    have hnl : p.solo.left = false := by
      cases hx : p.solo.left with
      | false => rfl
      | true => rw [(i4 hx).1] at c; cases c
    refine ⟨i0, done ++ [(env, l)], e', rs ++ [r], by rw [i1, c]; simp, answered_snoc i2 (by rw [← i3 hnl]; exact d), fun _ => rfl, fun hx => ?_⟩
    rw [hnl] at hx; cases hx
  | @leave e' _ _ a b c d f =>
    refine ⟨i0, done, e, rs, i1, i2, fun hx => (by cases hx), fun _ => ⟨c, ?_⟩⟩
    rw [← i3 d, ← i0]; exact f
  | _ => exact ⟨i0, done, e, rs, i1, i2, i3, i4⟩

theorem where_run {n : Nat} (h : Run n p q) (hr : p.reader = false) (i : Where e0 input0 last0 p.solo) : Where e0 input0 last0 q.solo := by
  induction h with
  | nil => exact i
  | cons hs _ ih => exact ih (reader_step hs hr) (where_step hr i hs)

theorem where_start {n : Nat} (hf : Standalone.fits e0 = true) (hl : AllAppend input0 last0) (h : Run n (start e0 input0 last0) p) :
    Where e0 input0 last0 p.solo := by
  have of : ∀ {m s}, Solo.Run m (Solo.start e0 input0 last0) s → Where e0 input0 last0 s := by
    intro m s hs
    obtain ⟨i0, ⟨done, e, rs, i1, i2, _, i4, i5⟩, _⟩ := alone_run hl hs (alone_start input0 last0 hf)
    exact ⟨i0, done, e, rs, i1, i2, i4, fun hx => ⟨(i5 hx).1, (i5 hx).2.2⟩⟩
  rcases split h with ⟨_, _, _, h⟩ | ⟨m, k, s, _, _, h, _, hk⟩
  · exact of h
  · exact where_run hk rfl (of h)

theorem answered_rest {e e1 e2 : Ced.Editor L} {done rest : List (EditorEnv L × Str)} {rs rs1 : List Response}
    (h : answered e (done ++ rest) = .ok (e2, rs)) (h1 : answered e done = .ok (e1, rs1)) : ∃ rs2, answered e1 rest = .ok (e2, rs2) := by
  induction done generalizing e rs rs1 with
  | nil => cases h1; exact ⟨rs, h⟩
  | cons x done ih =>
    obtain ⟨env, l⟩ := x
    simp only [List.cons_append, answered] at h h1
    obtain ⟨⟨e3, r3⟩, g1, h⟩ := bind_inv h
    obtain ⟨⟨e4, r4⟩, g2, h⟩ := bind_inv h
    cases h
    obtain ⟨⟨e6, r6⟩, g0, h1⟩ := bind_inv h1
    obtain ⟨⟨e5, r5⟩, g3, h1⟩ := bind_inv h1
    cases h1
    rw [g1] at g0
    cases g0
    exact ih g2 g3

theorem answered_out {e e' : Ced.Editor L} {ls : List (EditorEnv L × Str)} {rs : List Response} (hl : ∀ x ∈ ls, Appending x.1.lua)
    (h : answered e ls = .ok (e', rs)) : e.core.out <+: e'.core.out := by
  induction ls generalizing e rs with
  | nil => cases h; exact List.prefix_rfl
  | cons x ls ih =>
    obtain ⟨env, l⟩ := x
    unfold answered at h
    obtain ⟨⟨e1, r1⟩, g1, h⟩ := bind_inv h
    obtain ⟨⟨e2, r2⟩, g2, h⟩ := bind_inv h
    cases h
    exact (Editor.handle_prefix (hl (env, l) (List.mem_cons_self ..)) g1).trans (ih (fun x hx => hl x (List.mem_cons_of_mem _ hx)) g2)

end Hangup

/-- The reader of a session may go away at once; C107_unheard, C107_output, C107_progress and C107_bounded apply to it. -/
example (e : Ced.Editor LuaState) (input : List (EditorEnv LuaState × Str)) (last : EditorEnv LuaState) :
    ∃ p, Piped.Run 1 (Piped.start e input last) p ∧ p.reader = false := ⟨_, .cons (.closes rfl rfl) (.nil _), rfl⟩

open Hangup in
/-- C107: a standalone editor whose files and lines keep the rules of safe sessions, and whose reader goes away: whatever the two
threads do, one of them can go on until the process has ended, which happens after a bounded number of steps.  It ends by a
panic if some line was not yet answered when the reader went away, and properly if all were. -/
theorem C107_rules {R : Rules} {eng : LuaEngine} {env : EditorEnv LuaState} {cwd : Ced.Path} {args cwdText : Str}
    (hR : Known R) (ok : SafeEnv R eng env) (ha : R.text args) (hc : R.text cwdText) (hp : R.text eng.path) {files : List Str}
    (hf : ∀ e0 e1, Ced.Editor.new env ⟨[], []⟩ (Scripts.prelude eng) [] cwd args cwdText = .ok e0 → e0.addClient env 1 = .ok e1 →
      SafeFiles R eng env e1 files) :
    ∃ r, Standalone.start env ⟨[], []⟩ (Scripts.prelude eng) cwd args cwdText files = .ok r ∧
      ∀ e input last, r = .ready e → SafeInput R e input → (∃ eng', SafeEnv R eng' last) →
        ∃ most, ∀ n p, Piped.Run n (Piped.start e input last) p → p.reader = false →
          (p.solo.ended = true ∨ p.crashed = true ∨ ∃ q, Piped.Step p q) ∧ n ≤ most ∧
          (p.crashed = true → (responsesIn p.solo.out).length < input.length) ∧
          (p.solo.ended = true → (responsesIn p.solo.out).length = input.length) := by
  obtain ⟨H, ro⟩ := known_rules hR
  obtain ⟨e0, e1, h0, h1, hh⟩ := housed_start ro ok cwd ha hc hp
  have hfits : Standalone.fits e1 = true := by
    have := (joined_standard ok.std.lua h0 h1).2.1
    exact decide_eq_true (by rw [this]; decide)
  obtain ⟨r, h2, h3⟩ := housed_files ro ok hh (hf e0 e1 h0 h1)
  have hst : Standalone.start env ⟨[], []⟩ (Scripts.prelude eng) cwd args cwdText files = .ok r := by
    unfold Standalone.start
    rw [h0, except_bind_ok, show e0.addClient env Standalone.client = .ok e1 from h1, except_bind_ok, if_pos hfits]
    exact h2
  refine ⟨r, hst, ?_⟩
  rintro e input last rfl hi ⟨eng', ok'⟩
  obtain ⟨e1', rs, h4, hh1, h5, h7⟩ := housed_input ro (h3 e rfl) hi
  obtain ⟨e2, h6⟩ := housed_leave ro ok' hh1
  have hl : AllAppend input last :=
    ⟨fun x hx => by obtain ⟨g, o⟩ := h7 x hx; exact standard_appends o.std, standard_appends ok'.std⟩
  have hfit := ready_fits hst
  refine ⟨2 * input.length + 3 * e2.core.out.length + 4, fun n p hrun hr => ?_⟩
  obtain ⟨w0, done, x, xs, w1, w2, w3, w4⟩ := where_start hfit hl hrun
  rw [w1] at h4
  obtain ⟨rs2, h8⟩ := answered_rest h4 w2
  have hle : (responsesIn p.solo.out).length ≤ input.length := by
    obtain ⟨⟨done', later, x', xs', v1, v2, v3, _⟩, _⟩ := C107_output hfit hl hrun
    have := v3.length_le
    rw [answered_length v2] at this
    rw [v1, List.length_append]
    omega
  have hout : p.solo.editor.core.out.length ≤ e2.core.out.length := by
    have a := (answered_out (fun y hy => hl.1 y (by rw [w1]; exact List.mem_append_right _ hy)) h8).length_le
    have b := (Editor.removeClient_prefix hl.2 h6).length_le
    cases hx : p.solo.left with
    | false => rw [w3 hx]; omega
    | true =>
      obtain ⟨c, d⟩ := w4 hx
      rw [c] at h8
      cases h8
      rw [h6] at d
      cases d
      exact Nat.le_refl _
  refine ⟨?_, ?_, fun hcr => ?_, fun hen => ?_⟩
  · cases he : p.solo.ended with
    | true => exact .inl rfl
    | false =>
      cases hcr : p.crashed with
      | true => exact .inr (.inl rfl)
      | false =>
        refine .inr (.inr (Classical.byContradiction fun hs => ?_))
        rcases C107_progress hfit hl hrun hr he hcr hs with ⟨env', l, ls, k, k1, k2⟩ | ⟨k1, k0, k, k2⟩
        · have hx : p.solo.left = false := by
            cases hx : p.solo.left with
            | false => rfl
            | true => rw [(w4 hx).1] at k1; cases k1
          rw [k1] at h8
          unfold answered at h8
          rw [← w3 hx, k2] at h8
          cases h8
        · rw [k1] at h8
          cases h8
          rw [w3 k0, h6] at k2
          cases k2
  · have := C107_bounded hfit hl hrun
    omega
  · refine Nat.lt_of_le_of_ne hle fun he => ?_
    have := C107_answered hfit hl hrun hr he (fun y ys y' g1 g2 => by
      rw [w1, h4] at g1
      cases g1
      exact leave_silent ro ok' hh1 g2) (.nil p)
    rw [hcr] at this
    cases this
  · rcases Nat.lt_or_ge (responsesIn p.solo.out).length input.length with hlt | hge
    · have := C107_unanswered hfit hl hrun hr hlt (.nil p)
      rw [hen] at this
      cases this
    · omega

/-! ## A session whose reader goes away -/

open Hangup in
/-- a process that can go on until it has ended, and not for ever, ends -/
theorem hangup_ends {L : Type} {p0 : Piped L} {most : Nat}
    (h : ∀ n p, Piped.Run n p0 p → p.reader = false → (p.solo.ended = true ∨ p.crashed = true ∨ ∃ q, Piped.Step p q) ∧ n ≤ most) :
    ∀ k n p, Piped.Run n p0 p → p.reader = false → most + 1 ≤ n + k →
      ∃ m q, Piped.Run m p q ∧ (q.solo.ended = true ∨ q.crashed = true) := by
  intro k
  induction k with
  | zero => intro n p hn hr hk; have := (h n p hn hr).2; omega
  | succ k ih =>
    intro n p hn hr hk
    rcases (h n p hn hr).1 with he | hc | ⟨q, hq⟩
    · exact ⟨0, p, .nil p, .inl he⟩
    · exact ⟨0, p, .nil p, .inr hc⟩
    · obtain ⟨m, u, h1, h2⟩ := ih (n + 1) q (run_snoc hn hq) (reader_step hq hr) (by omega)
      exact ⟨m + 1, u, .cons hq h1, h2⟩

open Hangup in
/-- C107_rules applies: with lines to answer the process ends by a panic, and without lines it ends properly. -/
example : ∃ e, Standalone.start safeEnvA ⟨[], []⟩ (Scripts.prelude engA) [] [] [] [['g'], ['f']] = .ok (.ready e) ∧
    (∃ n p, Piped.Run n (Piped.start e (linesOfDo safeDoneB) safeEnvA) p ∧ p.reader = false ∧ p.crashed = true) ∧
    (∃ n p, Piped.Run n (Piped.start e [] safeEnvA) p ∧ p.reader = false ∧ p.solo.ended = true) := by
  have no : AsciiStr ([] : Str) := by intro c hc; cases hc
  obtain ⟨e0, e1, h0, h1, hh⟩ := housed_start rules_ascii safeEnvA_ok [] no no (asciiStrB_iff.1 rfl)
  have hb := batchB_ok
  unfold batchB at hb
  rw [h0, except_bind_ok, h1] at hb
  dsimp only at hb
  split at hb
  · rename_i e he
    injection hb with hb
    injection hb with hb1 hb2
    have hf := safeFilesB_ok hh hb1
    obtain ⟨r, hr, hrest⟩ := C107_rules .ascii safeEnvA_ok no no (asciiStrB_iff.1 rfl) (cwd := []) (files := [['g'], ['f']])
      (fun a b ha hb => by rw [h0] at ha; cases ha; rw [h1] at hb; cases hb; exact hf)
    obtain ⟨r2, hr2, hh2⟩ := housed_files rules_ascii safeEnvA_ok hh hf
    rw [he] at hr2
    cases hr2
    have hst : Standalone.start safeEnvA ⟨[], []⟩ (Scripts.prelude engA) [] [] [] [['g'], ['f']] = .ok (.ready e) := by
      unfold Standalone.start
      have hfits : Standalone.fits e1 = true := by
        have := (joined_standard safeEnvA_ok.std.lua h0 h1).2.1
        exact decide_eq_true (by rw [this]; decide)
      rw [h0, except_bind_ok, show e0.addClient safeEnvA Standalone.client = .ok e1 from h1, except_bind_ok, if_pos hfits]
      exact he
    rw [hst] at hr
    cases hr
    refine ⟨e, hst, ?_, ?_⟩
    · obtain ⟨most, hm⟩ := hrest e (linesOfDo safeDoneB) safeEnvA rfl (safeInputB_ok (hh2 e rfl) hb2) ⟨engA, safeEnvA_ok⟩
      have first : Piped.Run 1 (Piped.start e (linesOfDo safeDoneB) safeEnvA) { Piped.start e (linesOfDo safeDoneB) safeEnvA with reader := false } :=
        .cons (.closes rfl rfl) (.nil _)
      obtain ⟨m, q, g1, g2⟩ := hangup_ends (fun n p a b => ⟨(hm n p a b).1, (hm n p a b).2.1⟩) most 1 _ first rfl (by omega)
      have hq := reader_run g1 rfl
      refine ⟨_, q, run_trans first g1, hq, g2.resolve_left fun hen => ?_⟩
      have := (hm _ q (run_trans first g1) hq).2.2.2 hen
      rw [(unheard g1 rfl).out] at this
      exact absurd (show 0 = (linesOfDo safeDoneB).length from this) (by decide)
    · obtain ⟨most, hm⟩ := hrest e [] safeEnvA rfl trivial ⟨engA, safeEnvA_ok⟩
      have first : Piped.Run 1 (Piped.start e [] safeEnvA) { Piped.start e [] safeEnvA with reader := false } :=
        .cons (.closes rfl rfl) (.nil _)
      obtain ⟨m, q, g1, g2⟩ := hangup_ends (fun n p a b => ⟨(hm n p a b).1, (hm n p a b).2.1⟩) most 1 _ first rfl (by omega)
      have hq := reader_run g1 rfl
      refine ⟨_, q, run_trans first g1, hq, g2.resolve_right fun hcr => ?_⟩
      exact Nat.not_lt_zero _ ((hm _ q (run_trans first g1) hq).2.2.1 hcr)
  · cases hb

end Ced.Props

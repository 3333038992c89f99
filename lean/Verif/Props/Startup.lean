import Verif.Props.Standalone
import Verif.Props.Ffi
import Verif.Model.SessionName

/-!
# C64: what is in the logs when the editor has started; C36: the working directory; C57: negative lengths
-/

namespace Ced.Props

open Spec

theorem debug_none {env : Env} {w w' : World} {line : Str} (hm : w.debugMode = true) (hb : w.buffers.get BUFFER_DEBUG = none)
    (h : w.debug env line = .ok w') :
    w'.buffers.get BUFFER_DEBUG = some (Buffer.newScratch BUFFER_DEBUG (Str.encode (line ++ ['\n']))) := by
  unfold World.debug at h
  rw [if_pos hm] at h
  unfold World.appendTo at h
  rw [hb] at h
  obtain ⟨ps, hps, rfl⟩ := World.notify_ok h
  exact Assoc.get_set_self _ _ _

theorem debug_some {env : Env} {w w' : World} {line : Str} {b : Buffer} (hm : w.debugMode = true)
    (hb : w.buffers.get BUFFER_DEBUG = some b) (h : w.debug env line = .ok w') :
    w'.buffers.get BUFFER_DEBUG = some (b.append (Str.encode (line ++ ['\n']))) := by
  unfold World.debug at h
  rw [if_pos hm] at h
  unfold World.appendTo at h
  rw [hb] at h
  obtain ⟨ps, hps, rfl⟩ := World.notify_ok h
  exact Assoc.get_set_self _ _ _

/-- The log shows the text, and it has only grown. -/
def Logs (w : World) (s : Str) : Prop :=
  ∃ b, w.buffers.get BUFFER_DEBUG = some b ∧ ForwardHistory b.content ∧ Shows b.content (Str.encode s)

theorem logs_first {env : Env} {w w' : World} {line : Str} (hm : w.debugMode = true) (hb : w.buffers.get BUFFER_DEBUG = none)
    (h : w.debug env line = .ok w') : Logs w' (line ++ ['\n']) := by
  have hne := World.encode_ne line
  refine ⟨_, debug_none hm hb h, ?_, ?_⟩
  · show ForwardHistory (PieceTable.withText (if _ then _ else _))
    rw [if_neg hne]
    exact .withText hne trivial
  · show Shows (PieceTable.withText (if _ then _ else _)) _
    rw [if_neg hne]
    obtain ⟨r, hcont, _⟩ := PieceTable.withText_facts hne
    exact (PieceTable.shows_iff r.wf).2 hcont

theorem logs_more {env : Env} {w w' : World} {line s : Str} (hm : w.debugMode = true) (hl : Logs w s)
    (h : w.debug env line = .ok w') : Logs w' (s ++ (line ++ ['\n'])) := by
  obtain ⟨b, hb, hf, hs⟩ := hl
  have hne := World.encode_ne line
  refine ⟨_, debug_some hm hb h, ?_, ?_⟩
  · exact .edit (h := ⟨true, 0⟩) (e := .append (Str.encode (line ++ ['\n']))) (b := true) hf rfl ⟨by simp, by simp⟩
      (fun x hx => by cases hx; exact hne) rfl
  · have : Str.encode (s ++ (line ++ ['\n'])) = Str.encode s ++ Str.encode (line ++ ['\n']) := by simp [Str.encode]
    rw [this]
    exact C01_append (PieceTable.forward_any hf) hs hne

/-- What an editor of these scripts has logged when it has started. -/
def startLog (args cwdText path : Str) : Str :=
  str!"command: " ++ args ++ str!"\ncwd: " ++ cwdText ++ str!"\nlua state ready\nlua path: " ++ path ++ ['\n']

theorem start_logs {env : Env} {cwd : Path} {args cwdText : Str} {w : World} (h : World.start env cwd args cwdText = .ok w) :
    Logs w (str!"command: " ++ args ++ ['\n'] ++ (str!"cwd: " ++ cwdText ++ ['\n'])) ∧
    ∃ b, w.buffers.get str!"*scratch*" = some b ∧ Shows b.content [NL] := by
  unfold World.start at h
  obtain ⟨w1, h1, h⟩ := bind_inv h
  obtain ⟨w2, h2, h⟩ := bind_inv h
  obtain ⟨st, e, -⟩ := World.addView_ok (w2.openScratch BUFFER_SCRATCH []) ((View.addLens [] BUFFER_DEBUG .whole).addLens BUFFER_SCRATCH .whole)
  have h' := e.symm.trans h
  cases h'
  have l1 := logs_first (w := World.new cwd) rfl rfl h1
  have l2 := logs_more (by rw [(World.debug_ok h1).mode]; rfl) l1 h2
  refine ⟨?_, _, Assoc.get_set_self _ _ _, ?_⟩
  · obtain ⟨b, hb, hf, hs⟩ := l2
    exact ⟨b, (Assoc.get_set_ne _ (by decide)).trans hb, hf, hs⟩
  · obtain ⟨r, hcont, _⟩ := PieceTable.withText_facts (s := [NL]) (by decide)
    exact (PieceTable.shows_iff r.wf).2 hcont

/-- C64: when an editor has started, it has logged its command line, its working directory, and that its scripts are
loaded; it has this log and an empty scratch buffer, nobody is connected and nobody was told anything. -/
theorem C64_start {eng : LuaEngine} {env : EditorEnv LuaState} {lua : LuaState} {session : Str} {cwd : Path}
    {args cwdText : Str} {e : Ced.Editor LuaState}
    (h : Ced.Editor.new env lua (Scripts.prelude eng) session cwd args cwdText = .ok e) :
    (∃ b, e.core.buffers.get str!"*debug*" = some b ∧ Shows b.content (Str.encode (startLog args cwdText eng.path))) ∧
    (∃ b, e.core.buffers.get str!"*scratch*" = some b ∧ Shows b.content [NL]) ∧
    (∀ n, n ≠ str!"*debug*" → n ≠ str!"*scratch*" → e.core.buffers.get n = none) ∧
    e.core.clients.map = [] ∧ e.core.out = [] ∧ e.session = session ∧ e.core.cwd = cwd := by
  unfold Ced.Editor.new at h
  obtain ⟨w, hw, h⟩ := bind_inv h
  obtain ⟨c1, c2, o1, d1, v1, b1⟩ := start_world hw
  obtain ⟨⟨l, w', er⟩, hp, h⟩ := bind_inv h
  unfold Scripts.prelude at hp
  obtain ⟨w2, h2, hp⟩ := bind_inv hp
  obtain ⟨w3, h3, hp⟩ := bind_inv hp
  cases hp
  cases h
  have k2 := World.debug_ok h2
  have k3 := World.debug_ok h3
  obtain ⟨l1, sc, hsc, hss⟩ := start_logs hw
  have l2 := logs_more d1 l1 h2
  have l3 := logs_more (by rw [k2.mode, d1]) l2 h3
  obtain ⟨b, hb, hf, hs⟩ := l3
  refine ⟨⟨b, hb, ?_⟩, ⟨sc, ?_, hss⟩, fun n hn1 hn2 => ?_, ?_, ?_, rfl, ?_⟩
  · have : startLog args cwdText eng.path = str!"command: " ++ args ++ ['\n'] ++ (str!"cwd: " ++ cwdText ++ ['\n']) ++
        (str!"lua state ready" ++ ['\n']) ++ (str!"lua path: " ++ eng.path ++ ['\n']) := by
      simp [startLog]
    rw [this]
    exact hs
  · show w'.buffers.get _ = _
    rw [k3.others _ (by decide), k2.others _ (by decide)]
    exact hsc
  · show w'.buffers.get _ = _
    rw [k3.others _ hn1, k2.others _ hn1]
    exact b1 n hn1 hn2
  · show w'.clients.map = []
    rw [k3.clients, k2.clients, c1]
  · have o2 := empty_debug c1 h2
    have o3 := empty_debug (by rw [k2.clients, c1]) h3
    exact List.eq_nil_of_length_eq_zero (by show w'.out.length = 0; omega)
  · show w'.cwd = cwd
    rw [k3.cwd, k2.cwd, start_cwd hw]

/-- C59: a standalone editor that is ready, without files, has logged this and that its user is there. -/
theorem C59_log {eng : LuaEngine} {env : EditorEnv LuaState} (hs : env.lua = Scripts.lua eng) {lua : LuaState}
    {cwd : Path} {args cwdText : Str} {e : Ced.Editor LuaState}
    (h : Standalone.start env lua (Scripts.prelude eng) cwd args cwdText [] = .ok (.ready e)) :
    ∃ b, e.core.buffers.get str!"*debug*" = some b ∧
      Shows b.content (Str.encode (startLog args cwdText eng.path ++ str!"new client: 1\n")) := by
  unfold Standalone.start at h
  obtain ⟨e0, h0, h⟩ := bind_inv h
  obtain ⟨e1, h1, h⟩ := bind_inv h
  split at h <;> cases h
  unfold Ced.Editor.new at h0
  obtain ⟨w, hw, h0⟩ := bind_inv h0
  obtain ⟨c1, c2, o1, d1, v1, b1⟩ := start_world hw
  obtain ⟨⟨l, w', er⟩, hp, h0⟩ := bind_inv h0
  unfold Scripts.prelude at hp
  obtain ⟨w2, h2, hp⟩ := bind_inv hp
  obtain ⟨w3, h3, hp⟩ := bind_inv hp
  cases hp
  cases h0
  have k2 := World.debug_ok h2
  have k3 := World.debug_ok h3
  have l2 := logs_more d1 (start_logs hw).1 h2
  have l3 := logs_more (by rw [k2.mode, d1]) l2 h3
  obtain ⟨w4, h4, e2, o, h5, rfl⟩ := add_inv h1
  unfold Ced.Editor.execLua at h5
  rw [hs] at h5
  simp only [Scripts.lua, Scripts.addClient, except_bind_ok] at h5
  cases h5
  unfold World.addClient at h4
  obtain ⟨ctx, hctx, h4⟩ := bind_inv h4
  obtain ⟨⟨cs, o⟩, hcs, h4⟩ := bind_inv h4
  obtain ⟨w5, h6, h4⟩ := bind_inv h4
  cases h4
  obtain ⟨b, hb, hf, hsh⟩ := logs_more (by show w'.debugMode = true; rw [k3.mode, k2.mode, d1])
    (w := { w' with clients := cs }) l3 h6
  refine ⟨b, hb, ?_⟩
  have : startLog args cwdText eng.path ++ str!"new client: 1\n" =
      str!"command: " ++ args ++ ['\n'] ++ (str!"cwd: " ++ cwdText ++ ['\n']) ++
        (str!"lua state ready" ++ ['\n']) ++ (str!"lua path: " ++ eng.path ++ ['\n']) ++
        (str!"new client: " ++ natStr Standalone.client ++ ['\n']) := by
    have h1 : natStr Standalone.client = ['1'] := by decide
    rw [h1]
    simp [startLog]
  rw [this]
  exact hsh

/-- Both hold of a session of the examples. -/
example : ∃ e, Standalone.start cedEnv ⟨str!"s", []⟩ (Scripts.prelude engA) [] (str!"ced -x") (str!"/") [] = .ok (.ready e) ∧
    startLog (str!"ced -x") (str!"/") (str!"p") = str!"command: ced -x\ncwd: /\nlua state ready\nlua path: p\n" := by
  have h : readyB (Standalone.start cedEnv ⟨str!"s", []⟩ (Scripts.prelude engA) [] (str!"ced -x") (str!"/") []) = some true := by
    decide +kernel
  revert h
  generalize Standalone.start cedEnv ⟨str!"s", []⟩ (Scripts.prelude engA) [] (str!"ced -x") (str!"/") [] = r
  intro h
  match r, h with
  | .ok (.ready e), _ => exact ⟨e, rfl, by decide⟩

/-! ## C36 -/

/-- a text between slashes -/
theorem pieces_slash {c r : Str} (hc : '/' ∉ c) : pieces '/' (c ++ '/' :: r) = c :: pieces '/' r := by
  induction c with
  | nil => simp [pieces]
  | cons x c ih =>
    have hx : x ≠ '/' := fun e => hc (by simp [e])
    rw [List.cons_append, pieces, if_neg hx, ih (fun h => hc (by simp [h]))]

theorem pieces_last {c : Str} (hc : '/' ∉ c) : pieces '/' c = [c] := by
  induction c with
  | nil => rfl
  | cons x c ih =>
    have hx : x ≠ '/' := fun e => hc (by simp [e])
    rw [pieces, if_neg hx, ih (fun h => hc (by simp [h]))]

theorem pieces_path {p : Path} (hp : ∀ c ∈ p, c ≠ [] ∧ '/' ∉ c) {x : Str} (hx : '/' ∉ x) :
    pieces '/' (x ++ p.flatMap fun c => '/' :: c) = x :: p := by
  induction p generalizing x with
  | nil => simpa using pieces_last hx
  | cons c p ih =>
    rw [List.flatMap_cons, List.cons_append, pieces_slash hx, ih (fun d hd => hp d (by simp [hd])) (hp c (by simp)).2]

/-- C36: a client is told the working directory as a text that begins with a slash, and in which the names of the
directories are, in order, what is between the slashes. -/
theorem C36_cwd {T : Type} (o : Ornament T) (client session : Str) {cwd : Path} (hc : ∀ c ∈ cwd, c ≠ [] ∧ '/' ∉ c) :
    ∃ text, (Note.info client session cwd).params o =
        .obj [(str!"client", .str client), (str!"cwd", .str text), (str!"session", .str session)] ∧
      text.head? = some '/' ∧ (pieces '/' text).filter (· ≠ []) = cwd ∧ (text.getLast? = some '/' → cwd = []) := by
  refine ⟨displayPath cwd, rfl, ?_⟩
  cases cwd with
  | nil => exact ⟨rfl, by decide, fun _ => rfl⟩
  | cons c cs =>
    refine ⟨rfl, ?_, fun h => ?_⟩
    · have := pieces_path hc (x := []) (by simp)
      show (pieces '/' ((c :: cs).flatMap fun c => '/' :: c)).filter _ = _
      rw [List.nil_append] at this
      rw [this]
      simp only [ne_eq, List.filter_cons, not_true_eq_false, decide_false, Bool.false_eq_true, if_false]
      have h2 := List.filter_eq_self (l := c :: cs) (p := fun x => decide (¬ x = []))
      simp only [List.filter_cons] at h2
      refine h2.2 fun x hx => ?_
      simpa using (hc x hx).1
    · exfalso
      have h1 : ∀ l : Path, l ≠ [] → (∀ c ∈ l, c ≠ [] ∧ '/' ∉ c) → (l.flatMap fun c => '/' :: c).getLast? ≠ some '/' := by
        intro l
        induction l with
        | nil => intro h; exact absurd rfl h
        | cons d l ih =>
          intro _ hd
          cases l with
          | nil =>
            obtain ⟨d1, d2⟩ := hd d (by simp)
            simp only [List.flatMap_cons, List.flatMap_nil, List.append_nil]
            rw [List.getLast?_cons_of_ne_nil d1]
            exact fun h => d2 (List.mem_of_getLast? h)
          | cons d2 l =>
            have e : ((d :: d2 :: l).flatMap fun c => '/' :: c).getLast? = ((d2 :: l).flatMap fun c => '/' :: c).getLast? := by
              rw [List.flatMap_cons, List.getLast?_append]
              cases h : ((d2 :: l).flatMap fun c => '/' :: c).getLast? with
              | none => exact absurd (List.getLast?_eq_none_iff.1 h) (by simp)
              | some _ => rfl
            rw [e]
            exact ih (by simp) (fun x hx => hd x (by simp [hx]))
      exact h1 _ (by simp) hc h

/-- The root, and a directory in it. -/
example : displayPath [] = str!"/" ∧ displayPath [str!"home", str!"me"] = str!"/home/me" := by decide

/-! ## C57 -/

/-- C57, violated: with a negative length the library takes the memory for one of almost all addresses: unless the message is as
long as that, it is written whatever memory there is, over its end if the message is longer. -/
theorem C57_negative_refuted {m memory : Bytes} {len : Int} (h0 : len < 0) (h1 : -2147483648 ≤ len) :
    Ffi.errorCall (some m) (.message (some memory) len) =
      if 2 ^ 64 ≤ m.length + len.natAbs then .ok (none, ⟨-2, some memory⟩)
      else if m.length + 1 ≤ memory.length then
        .ok (none, ⟨Ffi.asI32 m.length, some (m ++ 0 :: memory.drop (m.length + 1))⟩)
      else .error .index := by
  have : Ffi.asUsize len = 2 ^ 64 - len.natAbs := by unfold Ffi.asUsize; omega
  unfold Ffi.errorCall
  dsimp only
  rw [this]
  by_cases h : 2 ^ 64 ≤ m.length + len.natAbs
  · rw [if_pos h, if_pos (by omega)]; rfl
  · rw [if_neg h, if_neg (by omega)]; rfl

example : Ffi.errorCall (some [104, 105]) (.message (some [7, 7]) (-1)) = .error .index := by decide

/-- What one thread called, or was returned. -/
def ofThread {A : Type} (t : Nat) (l : List (Nat × A)) : List A := l.filterMap fun x => if x.1 = t then some x.2 else none

theorem threads_each {pending after : Nat → Option Bytes} {cs : List (Nat × Ffi.ErrorCall)} {rs : List (Nat × Ffi.ErrorResult)}
    (h : Ffi.threadCalls pending cs = .ok (after, rs)) (t : Nat) :
    Ffi.errorCalls (pending t) (ofThread t cs) = .ok (after t, ofThread t rs) := by
  induction cs generalizing pending rs with
  | nil => cases h; rfl
  | cons x cs ih =>
    obtain ⟨u, c⟩ := x
    unfold Ffi.threadCalls at h
    obtain ⟨⟨p, r⟩, h1, h⟩ := bind_inv h
    obtain ⟨⟨q, rs'⟩, h2, h⟩ := bind_inv h
    cases h
    have := ih h2
    by_cases ht : t = u
    · subst ht
      rw [if_pos rfl] at this
      have e1 : ofThread t ((t, c) :: cs) = c :: ofThread t cs := by simp [ofThread]
      have e2 : ofThread t ((t, r) :: rs') = r :: ofThread t rs' := by simp [ofThread]
      rw [e1, e2]
      unfold Ffi.errorCalls
      rw [h1, except_bind_ok]
      dsimp only
      rw [this]
      rfl
    · rw [if_neg ht] at this
      have hu : u ≠ t := fun h => ht h.symm
      have e1 : ofThread t ((u, c) :: cs) = ofThread t cs := by simp [ofThread, hu]
      have e2 : ofThread t ((u, r) :: rs') = ofThread t rs' := by simp [ofThread, hu]
      rw [e1, e2]
      exact this

theorem threads_total {pending : Nat → Option Bytes} {cs : List (Nat × Ffi.ErrorCall)} (h : ∀ x ∈ cs, BufferOk x.2) :
    ∃ after rs, Ffi.threadCalls pending cs = .ok (after, rs) ∧ rs.map (·.1) = cs.map (·.1) := by
  induction cs generalizing pending with
  | nil => exact ⟨_, _, rfl, rfl⟩
  | cons x cs ih =>
    obtain ⟨u, c⟩ := x
    have one : ∃ p r, Ffi.errorCall (pending u) c = .ok (p, r) := by
      have hb := h (u, c) (List.mem_cons_self ..)
      cases hp : pending u with
      | none =>
        cases c with
        | fail m => exact ⟨_, _, rfl⟩
        | length => exact ⟨_, _, rfl⟩
        | message b n => cases b <;> exact ⟨_, _, rfl⟩
      | some m =>
        obtain ⟨rs, h1, _⟩ := C57_pending [.fail m, c] (by
          intro x hx
          rcases List.mem_cons.1 hx with rfl | hx
          · trivial
          · rw [List.mem_singleton.1 hx]; exact hb)
        unfold Ffi.errorCalls at h1
        obtain ⟨⟨p, r⟩, g1, h1⟩ := bind_inv h1
        cases g1
        obtain ⟨⟨p, r⟩, g2, h1⟩ := bind_inv h1
        unfold Ffi.errorCalls at g2
        obtain ⟨⟨p, r⟩, g3, g2⟩ := bind_inv g2
        exact ⟨p, r, g3⟩
    obtain ⟨p, r, h1⟩ := one
    obtain ⟨after, rs, h2, h3⟩ := ih (pending := fun v => if v = u then p else pending v) (fun x hx => h x (List.mem_cons_of_mem _ hx))
    refine ⟨after, (u, r) :: rs, ?_, by rw [List.map_cons, h3]; rfl⟩
    unfold Ffi.threadCalls
    rw [h1, except_bind_ok]
    dsimp only
    rw [h2]
    rfl

/-- C57 (threads): the calls of any number of threads, in whatever order they happen: each thread is returned exactly what it would
be returned if it were alone, so an error is never fetched, hidden or lost by another thread. -/
theorem C57_threads {cs : List (Nat × Ffi.ErrorCall)} (h : ∀ x ∈ cs, BufferOk x.2) :
    ∃ after rs, Ffi.threadCalls (fun _ => none) cs = .ok (after, rs) ∧ rs.map (·.1) = cs.map (·.1) ∧
      ∀ t, Ffi.errorCalls none (ofThread t cs) = .ok (after t, ofThread t rs) := by
  obtain ⟨after, rs, h1, h2⟩ := threads_total (pending := fun _ => none) h
  exact ⟨after, rs, h1, h2, fun t => threads_each h1 t⟩

/-- Two threads with an error each: the second one does not see that of the first. -/
example : (Ffi.threadCalls (fun _ => none) [(1, .fail [104, 105]), (2, .length), (2, .fail [111]), (1, .length),
    (2, .message (some [7, 7]) 2), (1, .message (some [7, 7, 7]) 3)]).toOption.map (·.2) =
    some [(1, ⟨0, none⟩), (2, ⟨-1, none⟩), (2, ⟨0, none⟩), (1, ⟨2, none⟩), (2, ⟨1, some [111, 0]⟩), (1, ⟨2, some [104, 105, 0]⟩)] := by decide

end Ced.Props

import Verif.Spec.Batch
import Verif.Props.SafeServer
import Verif.Props.WholeServer
import Verif.Props.Printing
import Verif.Props.Exec

/-! # C105: editors without a server that keep the rules do not crash -/

namespace Ced.Props
open Spec

theorem known_rules {R : Rules} (h : Known R) : ∃ H, RulesOk R H := by
  cases h with
  | ascii => exact ⟨_, rules_ascii⟩
  | any hg => exact ⟨_, rules_any hg⟩
  | still => exact ⟨_, rules_still⟩
  | whole hg => exact ⟨_, rules_whole hg⟩

/-- The editor of a server with a single client, which keeps the rules. -/
def Housed (R : Rules) (e : Ced.Editor LuaState) : Prop := ∃ s, SafeServer R s ∧ s.index = [1] ∧ s.editor = e

/-- the environments of the lines are those of safe sessions -/
def AllSafe (R : Rules) (input : List (EditorEnv LuaState × Str)) : Prop := ∀ x ∈ input, ∃ eng, SafeEnv R eng x.1

theorem run_exact {L : Type} {m n : Nat} {s t u : Solo L} (h1 : Solo.Run m s t) (h2 : Solo.Run n t u) : Solo.Run (m + n) s u := by
  induction h1 with
  | nil => rw [Nat.zero_add]; exact h2
  | cons hs _ ih => rw [Nat.add_right_comm]; exact .cons hs (ih h2)

section
variable {R : Rules} {H : World → Prop} (ro : RulesOk R H) {eng : LuaEngine} {env : EditorEnv LuaState} {e : Ced.Editor LuaState}
include ro

theorem housed_line (ok : SafeEnv R eng env) (hh : Housed R e) {line : Str} (hl : SafeLine R eng env e 1 line) :
    ∃ e' a, e.handle env 1 line = .ok (e', a) ∧ Housed R e' := by
  obtain ⟨s, hs, hi, rfl⟩ := hh
  have hev : SafeEvent R eng env s (.message 1 line) := ⟨by rw [hi]; exact List.mem_cons_self .., hl⟩
  obtain ⟨s', last, h, _, _, _, h1, a, h2⟩ := safe_turn ro ok (safe_server ro hs).1 (safe_server ro hs).2 hev
  exact ⟨s'.editor, a, h2, s', .event ok hs hev h, h1.trans hi, rfl⟩

theorem housed_leave (ok : SafeEnv R eng env) (hh : Housed R e) : ∃ e', e.removeClient env 1 = .ok e' := by
  obtain ⟨s, hs, hi, rfl⟩ := hh
  obtain ⟨w, hw, k'⟩ := safe_step ro ok (op := .leave 1) (safe_server ro hs).2 ro.leave
  have hw : s.editor.core.removeClient env.core 1 = .ok w := by rw [ok.std.core]; exact hw
  unfold Ced.Editor.removeClient
  rw [hw, except_bind_ok]
  unfold Ced.Editor.execLua
  rw [ok.std.lua]
  exact ⟨_, rfl⟩

/-- what a safe request does, keeps the editor -/
theorem housed_call (ok : SafeEnv R eng env) (hh : Housed R e) {call : Call} (hc : SafeCall R eng e 1 call)
    (same : ∀ p, Does env e 1 call = Does { env with parse := p } e 1 call) : ∃ e' o, Does env e 1 call = .ok (e', o) ∧ Housed R e' := by
  obtain ⟨q, hq, _, hm, hr⟩ := C38_call (id := .number 1) (by exact ⟨by decide, by decide⟩) call
  let env' : EditorEnv LuaState := { env with parse := fun _ => some (call.request (.number 1)).encode }
  have ok' : SafeEnv R eng env' := ⟨⟨ok.std.lua, ok.std.core, ok.std.tame, ok.std.follows⟩, ok.seg, ok.plain⟩
  have hl : SafeLine R eng env' e 1 [] := by
    unfold SafeLine
    rw [show (env'.parse []).bind Request.decode = some q from hq]
    refine ⟨fun call' ha => ?_, fun hn => absurd ?_ hn⟩
    · rw [asks_unique ha ⟨hm, hr⟩]; exact hc
    · rw [hm]; cases call <;> simp [methods, Call.method]
  obtain ⟨e', a, h, hh'⟩ := housed_line ro ok' hh hl
  obtain ⟨run, hd, hdo, _⟩ := does_eq env' e 1 q.id call hm hr
  unfold Ced.Editor.handle Ced.Editor.readLine at h
  rw [show (env'.parse []).bind Request.decode = some q from hq] at h
  dsimp only at h
  rw [hd] at h
  dsimp only at h
  obtain ⟨⟨e1, a1⟩, h1, h⟩ := map_inv h
  cases h
  refine ⟨e1, outcome a1, ?_, hh'⟩
  rw [same fun _ => some (call.request (.number 1)).encode, hdo, h1]
  rfl

theorem housed_files (ok : SafeEnv R eng env) {files : List Str} : ∀ {e : Ced.Editor LuaState}, Housed R e → SafeFiles R eng env e files →
    ∃ r, Standalone.openFiles env e files = .ok r ∧ ∀ e', r = .ready e' → Housed R e' := by
  induction files with
  | nil => exact fun hh _ => ⟨_, rfl, fun e' h => by cases h; exact hh⟩
  | cons f fs ih =>
    intro e hh hs
    obtain ⟨e1, o, h, hh1⟩ := housed_call ro ok hh (call := .edit f false) hs.1 (fun _ => rfl)
    obtain ⟨w, hw, h2⟩ := map_inv h
    injection h2 with h2 h3
    subst h2
    obtain ⟨r, h4, h5⟩ := ih hh1 (hs.2 w hw)
    unfold Standalone.openFiles Ced.Editor.commandEdit
    rw [show e.core.edit env.core Standalone.client (f, false).1 (f, false).2 = .ok w from hw]
    simp only [except_bind_ok]
    by_cases hf : Standalone.fits { e with core := w }
    · refine ⟨r, ?_, h5⟩
      simp only [pure, Except.pure, except_bind_ok]
      rw [if_pos hf]
      exact h4
    · refine ⟨.blocked, ?_, fun e' h => by cases h⟩
      simp only [pure, Except.pure, except_bind_ok]
      rw [if_neg hf]

theorem housed_input {input : List (EditorEnv LuaState × Str)} : ∀ {e : Ced.Editor LuaState}, Housed R e → SafeInput R e input →
    ∃ e' rs, answered e input = .ok (e', rs) ∧ Housed R e' ∧ rs.length = input.length ∧ AllSafe R input := by
  induction input with
  | nil => exact fun hh _ => ⟨_, [], rfl, hh, rfl, fun x hx => by cases hx⟩
  | cons x rest ih =>
    obtain ⟨env, line⟩ := x
    rintro e hh ⟨⟨eng, ok, hl⟩, hn⟩
    obtain ⟨e1, a, h1, hh1⟩ := housed_line ro ok hh hl
    obtain ⟨e2, rs, h2, hh2, h3, h4⟩ := ih hh1 (hn e1 a h1)
    refine ⟨e2, a :: rs, ?_, hh2, by simp [h3], fun x hx => ?_⟩
    · unfold answered
      rw [h1, except_bind_ok]
      dsimp only
      rw [h2]
      rfl
    · rcases List.mem_cons.1 hx with rfl | hx
      · exact ⟨eng, ok⟩
      · exact h4 x hx

/-- the editor starts, and its client joins -/
theorem housed_start (ok : SafeEnv R eng env) (cwd : Ced.Path) {args cwdText : Str} (ha : R.text args) (hc : R.text cwdText)
    (hp : R.text eng.path) : ∃ e0 e1, Ced.Editor.new env ⟨[], []⟩ (Scripts.prelude eng) [] cwd args cwdText = .ok e0 ∧
      e0.addClient env 1 = .ok e1 ∧ Housed R e1 := by
  obtain ⟨e0, h0, hs⟩ := rules_start ro ok [] cwd ha hc hp
  have hv : e0.core.views.map.length = 1 := by
    have h := h0
    unfold Ced.Editor.new at h
    obtain ⟨w, h1, h⟩ := bind_inv h
    obtain ⟨⟨l, w', err⟩, h2, h⟩ := bind_inv h
    unfold Scripts.prelude at h2
    obtain ⟨w2, h3, h2⟩ := bind_inv h2
    obtain ⟨w3, h4, h2⟩ := bind_inv h2
    have hw3 : w3 = e0.core := by
      cases h2; cases h; rfl
    rw [← hw3, (World.debug_ok h4).views, (World.debug_ok h3).views]
    unfold World.start at h1
    obtain ⟨x1, g1, h1⟩ := bind_inv h1
    obtain ⟨x2, g2, h1⟩ := bind_inv h1
    have gv : x2.views = StackMap.new := by rw [(World.debug_ok g2).views, (World.debug_ok g1).views]; rfl
    obtain ⟨st, g3, -⟩ := World.addView_ok (x2.openScratch BUFFER_SCRATCH [])
      ((View.addLens [] BUFFER_DEBUG .whole).addLens BUFFER_SCRATCH .whole)
    dsimp only at h1
    rw [g3] at h1
    cases h1
    show (Assoc.set x2.views.map _ _).length = 1
    rw [gv]
    rfl
  have hev : SafeEvent R eng env (Server.start e0) (.join 1) := ⟨by simp [Server.start], fun _ => hv⟩
  obtain ⟨s', last, h, _, _, _, h1, w, n, h2, _, _⟩ := safe_turn ro ok (safe_server ro hs).1 (safe_server ro hs).2 hev
  have hh : Housed R s'.editor := ⟨s', .event ok hs hev h, h1, rfl⟩
  have hst : e0.stopped = [] := by
    unfold Ced.Editor.new at h0
    obtain ⟨w, _, h0⟩ := bind_inv h0
    obtain ⟨⟨l, w', err⟩, _, h0⟩ := bind_inv h0
    cases err with
    | some _ => cases h0
    | none => cases h0; rfl
  unfold Server.turn at h
  obtain ⟨s1, hr, h3⟩ := ebind_inv h
  obtain ⟨s2, hpu, h3⟩ := ebind_inv h3
  simp only [Server.react] at hr
  obtain ⟨e1, he, hr⟩ := ebind_inv hr
  have he := lift_ok he
  cases hr
  rw [purge_calm (by exact (Ced.Editor.same_addClient he).stopped.trans hst)] at hpu
  cases hpu
  cases h3
  exact ⟨e0, e1, h0, he, hh⟩

theorem housed_scripts (ok : SafeEnv R eng env) {files : List (Str × (Str → Option Str))} : ∀ {stdin : Option Str} {e : Ced.Editor LuaState},
    Housed R e → (∀ first rest sources, files = first ++ rest → HaveSources stdin first sources → SafeScripts R eng e sources) →
    ∃ e' ended, Standalone.scripts env stdin e files = .ok (e', ended) ∧ (ended = .fine → Housed R e') := by
  have none' : ∀ stdin, HaveSources stdin [] [] := fun _ => ⟨rfl, fun b n d a h => by simp at h⟩
  induction files with
  | nil => exact fun hh _ => ⟨_, .fine, rfl, fun _ => hh⟩
  | cons x rest ih =>
    obtain ⟨name, disk⟩ := x
    intro stdin e hh hs
    unfold Standalone.scripts
    cases hr : Standalone.readSource disk stdin name with
    | mk src stdin' =>
      cases src with
      | none => exact ⟨e, .unreadable name, rfl, fun h => by cases h⟩
      | some source =>
        obtain ⟨l, w, m, h1, h2, h3, h4⟩ := hs [(name, disk)] rest [(name, source)] rfl (sources_cons hr (none' _))
        cases m with
        | none =>
          have hx : e.execLua env name Standalone.client (env.lua.exec Standalone.client source) =
              .ok ({ e with lua := l, core := w }, none) :=
            C64_exec_fine (by rw [ok.std.lua]; exact h1)
          obtain ⟨e1, o, h5, hh1⟩ := housed_call ro ok hh (call := .exec source) ⟨l, w, none, h1, h2, fun t ht => by cases ht⟩ (fun _ => rfl)
          have hy : e.execLua env str!"exec" 1 (env.lua.exec 1 source) = .ok ({ e with lua := l, core := w }, none) :=
            C64_exec_fine (by rw [ok.std.lua]; exact h1)
          simp only [Does] at h5
          rw [hy] at h5
          cases h5
          obtain ⟨e', ended, h6, h7⟩ := ih hh1 (stdin := stdin') (fun first rest' sources hf hso => by
            obtain ⟨l', w', m', g1, g2, g3, g4⟩ := hs ((name, disk) :: first) rest' ((name, source) :: sources) (by rw [hf]; rfl) (sources_cons hr hso)
            rw [h1] at g1
            cases g1
            exact g4 rfl)
          refine ⟨e', ended, ?_, h7⟩
          dsimp only
          rw [hx, except_bind_ok]
          exact h6
        | some message =>
          obtain ⟨s, hsv, hi, rfl⟩ := hh
          have k1 := safe_steps ro ok (carries_safe ro ok) (fun _ => trivial) (safe_server ro hsv).2 h2
          obtain ⟨tn, tm⟩ := h3 message rfl
          obtain ⟨w1, g1, k2⟩ := safe_step ro ok (op := .debug (str!"client " ++ natStr Standalone.client ++ str!": exec error: " ++ name ++
              str!"\n<<<<<<<\n" ++ message ++ str!"\n>>>>>>>")) k1 (by
            refine ro.debug (ro.app (ro.app (ro.app (ro.app (ro.app (ro.app
              (ro.lit (asciiStrB_iff.1 rfl)) (ro.lit (World.natStr_ascii _))) (ro.lit (asciiStrB_iff.1 rfl))) tn) (ro.lit (asciiStrB_iff.1 rfl))) tm)
              (ro.lit (asciiStrB_iff.1 rfl))))
          obtain ⟨w2, g2, _⟩ := safe_step ro ok (op := .error (some Standalone.client) str!"exec" message) k2 (ro.error (ro.lit (asciiStrB_iff.1 rfl)) tm)
          refine ⟨{ s.editor with lua := l, core := w2 }, .failed name message, ?_, fun h => by cases h⟩
          unfold Ced.Editor.execLua
          dsimp only
          rw [ok.std.lua, show (Scripts.lua eng).exec Standalone.client source s.editor.lua s.editor.core = .ok (l, w, some message) from h1]
          simp only [except_bind_ok]
          simp only [CoreOp.run] at g1 g2
          rw [ok.std.core, g1]
          simp only [except_bind_ok]
          rw [g2]
          rfl

end

/-! ## The claims -/

variable {R : Rules} {eng : LuaEngine} {env : EditorEnv LuaState} {cwd : Ced.Path} {args cwdText : Str}

/-- C105: an editor without a server, whose files and lines keep the rules of safe sessions, starts without a crash; if it does not wait
for ever (see C59), every line of the input is answered, and at every moment one of its two threads can go on, until the process
has ended properly, which it does after a bounded number of steps, all the responses printed. -/
theorem C105_standalone (hR : Known R) (ok : SafeEnv R eng env) (ha : R.text args) (hc : R.text cwdText) (hp : R.text eng.path)
    {files : List Str}
    (hf : ∀ e0 e1, Ced.Editor.new env ⟨[], []⟩ (Scripts.prelude eng) [] cwd args cwdText = .ok e0 → e0.addClient env 1 = .ok e1 →
      SafeFiles R eng env e1 files) :
    ∃ r, Standalone.start env ⟨[], []⟩ (Scripts.prelude eng) cwd args cwdText files = .ok r ∧
      ∀ e input last, r = .ready e → SafeInput R e input → (∃ eng', SafeEnv R eng' last) →
        ∃ e1 rs e2, answered e input = .ok (e1, rs) ∧ rs.length = input.length ∧ e1.removeClient last 1 = .ok e2 ∧
          ∀ n s, Solo.Run n (Solo.start e input last) s →
            (s.ended = true ∨ ∃ t, Solo.Step s t) ∧ n ≤ 2 * input.length + 3 * e2.core.out.length + 2 ∧
            (s.ended = true → responsesIn s.out = rs) := by
  obtain ⟨H, ro⟩ := known_rules hR
  obtain ⟨e0, e1, h0, h1, hh⟩ := housed_start ro ok cwd ha hc hp
  have hfits : Standalone.fits e1 = true := by
    have := (joined_standard ok.std.lua h0 h1).2.1
    exact decide_eq_true (by rw [this]; decide)
  obtain ⟨r, h2, h3⟩ := housed_files ro ok hh (hf e0 e1 h0 h1)
  have hst : Standalone.start env ⟨[], []⟩ (Scripts.prelude eng) cwd args cwdText files = .ok r := by
    unfold Standalone.start
    rw [h0, except_bind_ok, show e0.addClient env Standalone.client = .ok e1 from h1, except_bind_ok, if_pos hfits]
    exact h2
  refine ⟨r, hst, ?_⟩
  rintro e input last rfl hi ⟨eng', ok'⟩
  obtain ⟨e1', rs, h4, hh1, h5, h7⟩ := housed_input ro (h3 e rfl) hi
  obtain ⟨e2, h6⟩ := housed_leave ro ok' hh1
  refine ⟨e1', rs, e2, h4, h5, h6, fun n s hrun => ?_⟩
  have hl : AllAppend input last :=
    ⟨fun x hx => by obtain ⟨g, o⟩ := h7 x hx; exact standard_appends o.std, standard_appends ok'.std⟩
  have hfit := ready_fits hst
  have ends : ∀ {k t}, Solo.Run k (Solo.start e input last) t → t.ended = true → responsesIn t.out = rs ∧ t.editor = e2 := by
    intro k t hk ht
    obtain ⟨⟨x, b1, b2⟩, _⟩ := C101_end hfit hl hk ht
    rw [h4] at b1
    cases b1
    rw [h6] at b2
    cases b2
    exact ⟨rfl, rfl⟩
  cases he : s.ended with
  | true =>
    have := C101_bounded hfit hl hrun
    rw [(ends hrun he).2] at this
    exact ⟨.inl rfl, this, fun _ => (ends hrun he).1⟩
  | false =>
    obtain ⟨m, t, g1, g2, _, _⟩ := C101_completes hfit hl hrun he h4 h6
    refine ⟨.inr ?_, ?_, fun h => by cases h⟩
    · cases g1 with
      | nil => rw [he] at g2; cases g2
      | cons hs _ => exact ⟨_, hs⟩
    · have := C101_bounded hfit hl (run_exact hrun g1)
      rw [(ends (run_exact hrun g1) g2).2] at this
      omega

/-- C105: a run of files of scripts that do nothing but safe operations does not crash. -/
theorem C105_scripts (hR : Known R) (ok : SafeEnv R eng env) (ha : R.text args) (hc : R.text cwdText) (hp : R.text eng.path)
    {stdin : Option Str} {files : List (Str × (Str → Option Str))}
    (hf : ∀ e0 e1, Ced.Editor.new env ⟨[], []⟩ (Scripts.prelude eng) [] cwd args cwdText = .ok e0 → e0.addClient env 1 = .ok e1 →
      ∀ first rest sources, files = first ++ rest → HaveSources stdin first sources → SafeScripts R eng e1 sources) :
    ∃ e ended, Standalone.execScripts env ⟨[], []⟩ (Scripts.prelude eng) cwd args cwdText stdin files = .ok (e, ended) := by
  obtain ⟨H, ro⟩ := known_rules hR
  obtain ⟨e0, e1, h0, h1, hh⟩ := housed_start ro ok cwd ha hc hp
  obtain ⟨e2, ended, h2, h3⟩ := housed_scripts ro ok hh (hf e0 e1 h0 h1)
  unfold Standalone.execScripts
  rw [h0, except_bind_ok, show e0.addClient env Standalone.client = .ok e1 from h1, except_bind_ok, h2, except_bind_ok]
  dsimp only
  by_cases he : ended = .fine
  · obtain ⟨e3, h4⟩ := housed_leave ro ok (h3 he)
    rw [if_pos he, show e2.removeClient env Standalone.client = .ok e3 from h4]
    exact ⟨e3, .fine, rfl⟩
  · rw [if_neg he]
    exact ⟨e2, ended, rfl⟩

/-! ## The hypotheses are met: two files, and a session with motions, a script, a deletion and a line that holds no request -/

def safeFilesB (e : Ced.Editor LuaState) : List Str → Bool
  | [] => true
  | f :: fs => safeDirectB e 1 (.edit f false) && match e.core.edit envA 1 f false with
    | .ok w => safeFilesB { e with core := w } fs
    | .error _ => true

theorem safeFilesB_ok {fs : List Str} : ∀ {e : Ced.Editor LuaState}, Housed .ascii e → safeFilesB e fs = true →
    SafeFiles .ascii engA safeEnvA e fs := by
  induction fs with
  | nil => exact fun _ _ => trivial
  | cons f fs ih =>
    intro e hh h
    unfold safeFilesB at h
    rw [Bool.and_eq_true] at h
    obtain ⟨s, hs, hi, rfl⟩ := hh
    have hd := safeDirectB_ok (safe_server rules_ascii hs).2 h.1
    refine ⟨hd, fun w hw => ?_⟩
    have h2 := h.2
    rw [show s.editor.core.edit envA 1 f false = .ok w from hw] at h2
    obtain ⟨e1, o, h3, hh1⟩ := housed_call rules_ascii safeEnvA_ok ⟨s, hs, hi, rfl⟩ (call := .edit f false) hd (fun _ => rfl)
    simp only [Does] at h3
    rw [hw] at h3
    cases h3
    exact ih hh1 h2

def safeInputB (e : Ced.Editor LuaState) : List SafeDo → Bool
  | [] => true
  | x :: xs => match x.event with
    | .message 1 line => safeDoB { Server.start e with index := [1] } x && match e.handle safeEnvA 1 line with
      | .ok (e', _) => safeInputB e' xs
      | .error _ => true
    | _ => false

def linesOfDo (xs : List SafeDo) : List (EditorEnv LuaState × Str) :=
  xs.filterMap fun x => match x.event with | .message _ line => some (safeEnvA, line) | _ => none

theorem safeInputB_ok {xs : List SafeDo} : ∀ {e : Ced.Editor LuaState}, Housed .ascii e → safeInputB e xs = true →
    SafeInput .ascii e (linesOfDo xs) := by
  induction xs with
  | nil => exact fun _ _ => trivial
  | cons x xs ih =>
    intro e hh h
    unfold safeInputB at h
    split at h
    · rename_i line hx
      rw [Bool.and_eq_true] at h
      have hk : SafeHistory e.core := by
        obtain ⟨s, hs, hi, rfl⟩ := hh
        exact (safe_server rules_ascii hs).2
      have hl : SafeLine .ascii engA safeEnvA e 1 line := by
        have := safeDoB_ok (s := { Server.start e with index := [1] }) hk h.1
        rw [hx] at this
        exact this.2
      have hlines : linesOfDo (x :: xs) = (safeEnvA, line) :: linesOfDo xs := by
        unfold linesOfDo
        rw [List.filterMap_cons]
        simp only [hx]
      rw [hlines]
      refine ⟨⟨engA, safeEnvA_ok, hl⟩, fun e' r he => ?_⟩
      have h2 := h.2
      rw [he] at h2
      obtain ⟨e1, a, h3, hh1⟩ := housed_line rules_ascii safeEnvA_ok hh hl
      rw [he] at h3
      cases h3
      exact ih hh1 h2
    · cases h

def safeDoneB : List SafeDo :=
  [.call 1 (.keys [press 'l', press 'g', press 'l', press 'h']), .junk 1 (str!"hello"), .call 1 (.exec (str!"hi")),
   .call 1 (.menu [] []), .call 1 (.menuSelect [] (str!"scratch")), .call 1 (.viewAdd ['f']), .call 1 (.edit ['f'] false)]

/-- the state after the start, and whether what follows keeps the rules -/
def batchB : Option (Bool × Bool) :=
  match Ced.Editor.new safeEnvA ⟨[], []⟩ (Scripts.prelude engA) [] [] [] [] >>= fun e0 => e0.addClient safeEnvA 1 with
  | .error _ => none
  | .ok e1 => match Standalone.openFiles safeEnvA e1 [['g'], ['f']] with
    | .ok (.ready e) => some (safeFilesB e1 [['g'], ['f']], safeInputB e safeDoneB)
    | _ => none

theorem batchB_ok : batchB = some (true, true) := by decide +kernel

/-- C105_standalone applies. -/
example : ∃ e e1 rs, Standalone.start safeEnvA ⟨[], []⟩ (Scripts.prelude engA) [] [] [] [['g'], ['f']] = .ok (.ready e) ∧
    answered e (linesOfDo safeDoneB) = .ok (e1, rs) ∧ rs.length = 7 := by
  have no : AsciiStr ([] : Str) := by intro c hc; cases hc
  obtain ⟨e0, e1, h0, h1, hh⟩ := housed_start rules_ascii safeEnvA_ok [] no no (asciiStrB_iff.1 rfl)
  have hb := batchB_ok
  unfold batchB at hb
  rw [h0, except_bind_ok, h1] at hb
  dsimp only at hb
  split at hb
  · rename_i e he
    injection hb with hb
    injection hb with hb1 hb2
    have hf := safeFilesB_ok hh hb1
    obtain ⟨r, hr, hrest⟩ := C105_standalone .ascii safeEnvA_ok no no (asciiStrB_iff.1 rfl) (cwd := []) (files := [['g'], ['f']])
      (fun a b ha hb => by rw [h0] at ha; cases ha; rw [h1] at hb; cases hb; exact hf)
    obtain ⟨r2, hr2, hh2⟩ := housed_files rules_ascii safeEnvA_ok hh hf
    rw [he] at hr2
    cases hr2
    have hst : Standalone.start safeEnvA ⟨[], []⟩ (Scripts.prelude engA) [] [] [] [['g'], ['f']] = .ok (.ready e) := by
      unfold Standalone.start
      have hfits : Standalone.fits e1 = true := by
        have := (joined_standard safeEnvA_ok.std.lua h0 h1).2.1
        exact decide_eq_true (by rw [this]; decide)
      rw [h0, except_bind_ok, show e0.addClient safeEnvA Standalone.client = .ok e1 from h1, except_bind_ok, if_pos hfits]
      exact he
    rw [hst] at hr
    cases hr
    obtain ⟨e2, rs, _, g1, g2, _⟩ := hrest e (linesOfDo safeDoneB) safeEnvA rfl (safeInputB_ok (hh2 e rfl) hb2) ⟨engA, safeEnvA_ok⟩
    exact ⟨e, e2, rs, hst, g1, g2⟩
  · cases hb

/-- Sources in ASCII are safe scripts for an engine that says its source. -/
theorem safeSources {sources : List (Str × Str)} : ∀ {e : Ced.Editor LuaState}, SafeHistory e.core → (∀ x ∈ sources, AsciiStr x.2) →
    SafeScripts .ascii engA e sources := by
  induction sources with
  | nil => exact fun _ _ => trivial
  | cons x rest ih =>
    obtain ⟨name, source⟩ := x
    intro e hk ha
    have hs : Safe engA.core e.core (.message (some 1) source) := ha _ (List.mem_cons_self ..)
    obtain ⟨w, hw, kw⟩ := safe_step rules_ascii safeEnvA_ok hk (op := .message (some 1) source) hs
    refine ⟨e.lua, w, none, ?_, .next (op := .message (some 1) source) (honest_plain rfl) hs hw (.none _), (by intro t ht; cases ht),
      fun _ => ih kw fun x hx => ha x (List.mem_cons_of_mem _ hx)⟩
    show (e.core.message envA (some 1) source).map _ = _
    rw [show e.core.message envA (some 1) source = .ok w from hw]
    rfl

/-- C105_scripts applies: a file and the standard input, which send a message each. -/
example : ∃ e ended, Standalone.execScripts safeEnvA ⟨[], []⟩ (Scripts.prelude engA) [] [] [] (some str!"hi")
    [(['f'], fun _ => some str!"ho"), (['-'], fun _ => none)] = .ok (e, ended) := by
  have no : AsciiStr ([] : Str) := by intro c hc; cases hc
  refine C105_scripts .ascii safeEnvA_ok no no (asciiStrB_iff.1 rfl) fun e0 e1 h0 h1 first rest sources hf hs => ?_
  obtain ⟨a, b, ha, hb, s, hsv, _, rfl⟩ := housed_start rules_ascii safeEnvA_ok [] no no (asciiStrB_iff.1 rfl)
  rw [h0] at ha
  cases ha
  rw [h1] at hb
  cases hb
  refine safeSources (safe_server rules_ascii hsv).2 fun x hx => ?_
  obtain ⟨i, hi, hxi⟩ := List.getElem_of_mem hx
  have hlen : sources.length = first.length := by simpa using (congrArg List.length hs.1).symm
  have hin : i < first.length := by omega
  have := hs.2 (first.take i) (first[i]).1 (first[i]).2 (first.drop (i + 1)) (by
    show first = first.take i ++ first[i] :: first.drop (i + 1)
    rw [← List.drop_eq_getElem_cons hin, List.take_append_drop])
  rw [List.length_take, Nat.min_eq_left (by omega), List.getElem?_eq_getElem hi, hxi] at this
  match first, hf with
  | [], hf => simp at hin
  | [p], hf =>
    simp only [List.cons_append, List.nil_append] at hf
    injection hf with h2 h3
    subst h2
    obtain rfl : i = 0 := by simpa using hin
    simp [sourceAt] at this
    rw [this]
    exact asciiStrB_iff.1 rfl
  | [p, q], hf =>
    simp only [List.cons_append, List.nil_append] at hf
    injection hf with h2 h3
    injection h3 with h3 h4
    subst h2
    subst h3
    match i, hin with
    | 0, _ =>
      simp [sourceAt] at this
      rw [this]
      exact asciiStrB_iff.1 rfl
    | 1, _ =>
      simp [sourceAt] at this
      rw [this]
      exact asciiStrB_iff.1 rfl
  | p :: q :: r :: t, hf => simp at hf

end Ced.Props

import Verif.Props.UserTerminal

/-! # C95: a server and its users, in texts of any characters: an example -/

namespace Ced.Props
open Spec Scripts PieceTable

/-- the world of `envE`: a file `e` that contains `é`, lines divided into `clusters` -/
def engE : LuaEngine where
  core := envE
  pairs := id
  nilError := str!"nil"
  path := str!"é/?.lua"
  exec := fun c s l w => (w.message envE (some c) s).map fun w => (l, w, none)

def safeEnvE : EditorEnv LuaState where
  core := envE
  lua := Scripts.lua engE
  compile := plainCompile
  files := fun _ => []
  parse := JsonText.parse
  lineError := fun _ => str!"no"
  paramsError := fun _ => str!"no"

theorem standardE : Standard engE safeEnvE where
  lua := rfl
  core := rfl
  tame := by
    intro c s l w l' w' m h
    obtain ⟨w1, h1, h2⟩ := map_inv h
    cases h2
    exact ⟨rfl, .one (op := .message (some c) s) (Editor.tidily_free rfl (by simp)) h1⟩
  follows := fun _ => rfl

theorem safeEnvE_ok : SafeEnv (.any clusters) engE safeEnvE := ⟨standardE, ⟨rfl, clusters_ok⟩, sameA, plainCompile_engine⟩

theorem safeEnvE_still : SafeEnv .still engE safeEnvE := ⟨standardE, clusters_ok, sameA, plainCompile_engine⟩

/-- a call, as the clients write it -/
theorem call_line {R : Rules} {e : Ced.Editor LuaState} {c : Nat} {call : Call} (h : SafeCall R engE e c call) :
    SafeLine R engE safeEnvE e c (call.request (.number 1)).encode.write := by
  obtain ⟨q, hq, _, hm, hr⟩ := C38_call (id := .number 1) (by exact ⟨by decide, by decide⟩) call
  have hp : (safeEnvE.parse (call.request (.number 1)).encode.write).bind Request.decode = some q := by
    rw [show safeEnvE.parse = JsonText.parse from rfl, JsonText.parse_write, Option.bind_some, hq]
  unfold SafeLine
  rw [hp]
  refine ⟨fun call' ha => ?_, fun hn => absurd ?_ hn⟩
  · rw [asks_unique ha ⟨hm, hr⟩]
    exact h
  · rw [hm]
    cases call <;> simp [methods, Call.method]

/-- opening the file is safe -/
theorem openE_safe {w : World} (hc : w.clients.map.has 1 = true) (hn : w.buffers.get ['e'] = none) (hd : w.cwd = []) :
    SafeAny envE w (.edit 1 ['e'] false) := by
  refine ⟨hc, by decide, fun _ => ⟨fun _ => ?_, fun b hb => ?_⟩⟩
  · rw [hd]
    exact ⟨⟨textE, 1⟩, by decide, textE_isText⟩
  · rw [hn] at hb; cases hb

/-- going down one line from the start of the file is safe -/
theorem downE_safe {w : World} (h : AnyCharsHistory clusters w) (hs : seen w = some (str!"e{*}", [(['e'], [⟨0, 0, 1⟩])]))
    (hleft : ((w.clients.map.get 1).map fun x => noLeftoverB x x.view) = some true)
    (ht : (w.buffers.get ['e']).map (fun b => b.content.content) = some textE) : SafeAny envE w (.move 1 .down false) := by
  obtain ⟨ctx, hc, _, hm⟩ := seen_inv hs
  rw [hc] at hleft
  refine ⟨ctx, hc, noLeftoverB_ok (Option.some.inj hleft), ?_⟩
  intro m n ss sel b s hm' hn hsel hb hs
  rw [hm] at hm'; cases hm'
  by_cases hne : n = ['e']
  · subst hne
    cases (show some ([⟨0, 0, 1⟩] : List Selection) = some ss from hn)
    rw [List.mem_singleton.1 hsel, text_of h (t := textE) ht hb hs]
    refine .inr ⟨2, 1, 2, ⟨1, 1, 0, ⟨[], [97], _, textE_first, .inr (.inl ⟨rfl, by decide, rfl⟩)⟩,
      ⟨[], [97], _, textE_first, by decide, by omega, rfl⟩, .down (by decide)⟩, ⟨_, _, _, textE_line, by decide, ?_⟩,
      C95_inside textE_line (by decide) (by decide) (by decide)⟩
    simp
  · have : Assoc.get [(['e'], ([⟨0, 0, 1⟩] : List Selection))] n = none := by
      simp [Assoc.get, Ne.symm hne]
    rw [this] at hn; cases hn

/-- the server starts and client 1 joins; it opens the file; it goes down one line -/
def serverE0 : Except Crash (Server LuaState) := do
  let e ← Server.lift (Ced.Editor.new safeEnvE ⟨str!"s", []⟩ (Scripts.prelude engE) str!"s" [] (str!"é") [])
  let (s, _) ← (Server.start e).turn safeEnvE true (.join 1)
  return s

def eventsE : List Call := [.edit ['e'] false, .keys [press 'j']]

def stepsE : List (Server.Step LuaState) :=
  eventsE.flatMap fun x => .event safeEnvE true (.message 1 (x.request (.number 1)).encode.write) ::
    List.replicate 9 (.deliver [])

theorem deliver_editor (s : Server LuaState) (b : List Nat) : (s.deliver b).editor = s.editor ∧ (s.deliver b).index = s.index := by
  unfold Server.deliver; split <;> exact ⟨rfl, rfl⟩

theorem deliver_many {c : Nat} {R : Rules} {g : Segmentation} {steps : List (Server.Step LuaState)} : ∀ {n : Nat} {s : Server LuaState},
    (∀ s', s'.editor = s.editor → s'.index = s.index → UserSchedule R g c s' steps) →
    UserSchedule R g c s (List.replicate n (.deliver []) ++ steps)
  | 0, s, h => h s rfl rfl
  | n + 1, s, h => by
    refine ⟨List.not_mem_nil, deliver_many fun s' e1 e2 => h s' ?_ ?_⟩
    · rw [e1, (deliver_editor s []).1]
    · rw [e2, (deliver_editor s []).2]

/-- what the proof of safety reads off the state -/
structure FactsE where
  index : List Nat
  joined : Bool
  text : Option Bytes
  cwd : List Str
  seen : Option (Str × List (Str × List Selection))
  left : Option Bool
  mode : Option KeyMode
deriving DecidableEq

def factsE (s : Server LuaState) : FactsE :=
  ⟨s.index, s.editor.core.clients.map.has 1, (s.editor.core.buffers.get ['e']).map (fun b => b.content.content), s.editor.core.cwd,
    seen s.editor.core, (s.editor.core.clients.map.get 1).map (fun x => noLeftoverB x x.view), modeB s.editor.lua 1⟩

def serverE1 : Except Crash (Server LuaState) := do
  let s ← serverE0
  let (s, _) ← s.turn safeEnvE true (.message 1 ((Call.edit ['e'] false).request (.number 1)).encode.write)
  return s

theorem factsE0 : serverE0.toOption.map factsE =
    some ⟨[1], true, none, [], some (str!"*debug*{*}|*scratch*{*}", [(BUFFER_DEBUG, [⟨0, 0, 1⟩]), (BUFFER_SCRATCH, [⟨0, 0, 1⟩])]),
      some true, some .normal⟩ := by decide +kernel

theorem factsE1 : serverE1.toOption.map factsE =
    some ⟨[1], true, some textE, [], some (str!"e{*}", [(['e'], [⟨0, 0, 1⟩])]), some true, some .normal⟩ := by decide +kernel

/-- the first state of the example -/
theorem serverE0_ok : ∃ e s, Ced.Editor.new safeEnvE ⟨str!"s", []⟩ (Scripts.prelude engE) str!"s" [] (str!"é") [] = .ok e ∧
    (Server.start e).turn safeEnvE true (.join 1) = .ok (s, false) ∧ serverE0 = .ok s ∧ SafeServer (.any clusters) s := by
  obtain ⟨e, he, r⟩ := C95_server_start safeEnvE_ok (str!"s") [] (str!"é") []
  obtain ⟨s, ht, _⟩ := C95_first safeEnvE_ok he 1
  refine ⟨e, s, he, ht, ?_, .event (ev := .join 1) safeEnvE_ok r ⟨List.not_mem_nil, fun _ => (new_world he).2.1⟩ ht⟩
  unfold serverE0
  rw [he]
  show ((Server.start e).turn safeEnvE true (.join 1) >>= _) = _
  rw [ht]
  rfl

/-- The schedule keeps to the rules for texts of any characters: C95_session and C95_user apply. -/
theorem userE : ∃ s, serverE0 = .ok s ∧ SafeServer (.any clusters) s ∧ UserSchedule (.any clusters) clusters 1 s stepsE := by
  obtain ⟨e, s, he, ht, hs, r⟩ := serverE0_ok
  have f0 := factsE0
  rw [hs] at f0
  have f0 := Option.some.inj f0
  simp only [factsE, FactsE.mk.injEq] at f0
  obtain ⟨i0, c0, b0, d0, _⟩ := f0
  refine ⟨s, hs, r, rfl, rfl, ⟨engE, safeEnvE_ok, by rw [i0]; exact List.mem_singleton.2 rfl, call_line (call := .edit ['e'] false)
    (openE_safe c0 (by cases h : s.editor.core.buffers.get ['e'] with | none => rfl | some b => rw [h] at b0; cases b0) d0)⟩, .inl i0, fun s1 h1 => ?_⟩
  have f1 := factsE1
  have e1 : serverE1 = .ok s1 := by
    unfold serverE1
    rw [hs]
    show (s.turn safeEnvE true _ >>= _) = _
    rw [h1]
    rfl
  rw [e1] at f1
  have f1 := Option.some.inj f1
  simp only [factsE, FactsE.mk.injEq] at f1
  obtain ⟨i1, _, t1, _, s1', l1, m1⟩ := f1
  have r1 : SafeServer (.any clusters) s1 := .event (ev := .message 1 ((Call.edit ['e'] false).request (.number 1)).encode.write) safeEnvE_ok r ⟨by rw [i0]; exact List.mem_singleton.2 rfl, call_line (call := .edit ['e'] false)
    (openE_safe c0 (by cases h : s.editor.core.buffers.get ['e'] with | none => rfl | some b => rw [h] at b0; cases b0) d0)⟩ h1
  refine deliver_many fun s2 e2 x2 => ⟨rfl, rfl, ⟨engE, safeEnvE_ok, by rw [x2, i1]; exact List.mem_singleton.2 rfl,
    call_line (call := .keys [press 'j']) ?_⟩, .inl (by rw [x2, i1]), fun s3 _ => ?_⟩
  · intro m hm
    rw [e2] at hm ⊢
    have : m = .normal := by
      have := modeB_ok hm
      rw [m1] at this
      exact (Option.some.inj this).symm
    subst this
    refine ⟨fun op ho => ?_, fun _ _ => trivial⟩
    have : op = .move 1 .down false := by
      have h : KeyMode.normal.op 1 (press 'j').display = some (.move 1 .down false) := by decide
      rw [h] at ho
      exact (Option.some.inj ho).symm
    subst this
    exact downE_safe (safe_server (rules_any clusters_ok) r1).2 s1' l1 t1
  · exact deliver_many (n := 9) (steps := []) fun _ _ _ => trivial

/-- what the client then has on its screen -/
def shownE : List (Str × List Str) :=
  match (do let s ← serverE0; s.loop stepsE) with
  | .error _ => []
  | .ok (s, _) => if s.delivered = s.editor.core.out.length then
      match Connection.new.run fragmentTexts JsonText.parse
        ((readLines ((wiresTo 1 s.written).flatMap fun w => frame (w.encode fragmentTexts))).map .line) with
      | .error _ => []
      | .ok c => c.state.view.flatMap fun i => i.lenses.map fun l => (i.buffer, l.lines.map fun t => t.flatMap (·.1))
    else []

/-- everything was delivered, and the screen shows the file (`fragmentTexts` writes each byte as a character) -/
example : shownE = [(['e'], [str!"a ", str!"bÃ© ", str!"c "])] := by decide +kernel

/-- and the conclusion of `C95_screens` for it -/
example : ∃ s s' rest, serverE0 = .ok s ∧ s.loop stepsE = .ok (s', rest) ∧ UpToDate envE s'.editor.core 1 := by
  obtain ⟨e, s, he, ht, hs, r⟩ := serverE0_ok
  obtain ⟨s', h1, _, hu⟩ := userE
  rw [hs] at h1
  cases h1
  obtain ⟨s1, h2, hi, _, up⟩ := C95_first safeEnvE_ok he 1
  rw [ht] at h2
  cases h2
  obtain ⟨s2, rest, h3, _, _, h4⟩ := C95_screens clusters_ok (enw := envE) rfl r (by rw [hi]; exact List.mem_singleton.2 rfl) hu up
  exact ⟨_, s2, rest, hs, h3, h4⟩

/-! ### Without motions -/

theorem serverE0_still : ∃ e s, Ced.Editor.new safeEnvE ⟨str!"s", []⟩ (Scripts.prelude engE) str!"s" [] (str!"é") [] = .ok e ∧
    (Server.start e).turn safeEnvE true (.join 1) = .ok (s, false) ∧ serverE0 = .ok s ∧ SafeServer .still s := by
  obtain ⟨e, s, he, ht, hs, _⟩ := serverE0_ok
  exact ⟨e, s, he, ht, hs, .event (ev := .join 1) safeEnvE_still (.start safeEnvE_still trivial trivial trivial he)
    ⟨List.not_mem_nil, fun _ => (new_world he).2.1⟩ ht⟩

/-- Opening the file is also safe by the rules without motions, and a line that is no request, in any characters: `C95_server_still`
applies. -/
example : ∃ s, SafeServer .still s ∧ SafeSchedule .still s
    [.event safeEnvE true (.message 1 ((Call.edit ['e'] false).request (.number 1)).encode.write), .deliver [],
     .event safeEnvE true (.join 2)] := by
  obtain ⟨e, s, he, ht, hs, r⟩ := serverE0_still
  have f0 := factsE0
  rw [hs] at f0
  have f0 := Option.some.inj f0
  simp only [factsE, FactsE.mk.injEq] at f0
  obtain ⟨i0, c0, b0, d0, _⟩ := f0
  refine ⟨s, r, rfl, ⟨engE, safeEnvE_still, by rw [i0]; exact List.mem_singleton.2 rfl, call_line (call := .edit ['e'] false) ?_⟩,
    fun s1 h1 => ?_⟩
  · obtain ⟨h1, h2, h3⟩ := openE_safe c0 (by cases h : s.editor.core.buffers.get ['e'] with | none => rfl | some b => rw [h] at b0; cases b0) d0
    refine ⟨h1, h2, fun hsc => ⟨(h3 hsc).1, fun b hb => ?_⟩⟩
    rw [hb] at b0; cases b0
  · have f1 := factsE1
    have e1 : serverE1 = .ok s1 := by
      unfold serverE1
      rw [hs]
      show (s.turn safeEnvE true _ >>= _) = _
      rw [h1]
      rfl
    rw [e1] at f1
    have f1 := Option.some.inj f1
    simp only [factsE, FactsE.mk.injEq] at f1
    have i1 := f1.1
    refine ⟨rfl, ⟨engE, safeEnvE_still, ?_, fun h => ?_⟩, fun _ _ => trivial⟩
    · rw [(deliver_editor s1 []).2, i1]; decide
    · rw [(deliver_editor s1 []).2, i1] at h; cases h

end Ced.Props

import Verif.Spec.Agree
import Verif.Props.Batch
import Verif.Props.UserScreen
import Verif.Props.UserBytes

/-! # C106: two users who look at the same buffer see the same text -/

namespace Ced.Props
open Spec
variable {T : Type} {o : Ornament T} {parse : Str → Option Json}

/-- what is on the screen of a user -/
theorem watching_shows {R : Rules} (hR : Known R) (ho : OrnamentOk o) (hp : JsonText.ReadsBack parse) {env : Env} {c : Nat} {s : Server LuaState}
    {conn : Connection T} (h : Watching R env o parse c s conn) :
    ∃ ctx items, s.editor.core.clients.map.get c = some ctx ∧ conn.state.view = items.map (seenItem o) ∧
      List.Forall₂ (ShowsText s.editor.core) ctx.view.buffers items := by
  obtain ⟨H, ro⟩ := known_rules hR
  obtain ⟨s0, steps, k, hs, hl⟩ := h.since
  obtain ⟨cs, h1, h2⟩ := h.read
  obtain ⟨ctx, items, e1, _, e2, e3⟩ := rules83_user ro ho hp rfl k.safe k.run k.there k.current k.silent k.queue k.coming hs hl h.fit h1 h2 h.all
  exact ⟨ctx, items, e1, e2, e3⟩

theorem shown_names {w : World} : ∀ {names : List Str} {items : List ViewParamsItem}, List.Forall₂ (ShowsText w) names items →
    items.map (·.buffer) = names ∧ ∀ i ∈ items, ShowsText w i.buffer i
  | _, _, .nil => ⟨rfl, fun i h => by cases h⟩
  | _, _, .cons h t => by
    obtain ⟨h1, h2⟩ := shown_names t
    refine ⟨by rw [List.map_cons, h1, h.1], fun i hi => ?_⟩
    rcases List.mem_cons.1 hi with rfl | hi
    · have := h.1
      subst this
      exact h
    · exact h2 i hi

/-- C106: two users of a session, wherever and whenever they connected, once everything was delivered and read: each has exactly the
buffers of its own view on its screen, and every buffer that both have on their screens shows the same lines on both. -/
theorem C106_same {R : Rules} (hR : Known R) (ho : OrnamentOk o) (hp : JsonText.ReadsBack parse) {plain : T → Bytes}
    (hpl : ∀ l, plain (o.decorated l) = l.text) {env : Env} {s : Server LuaState} {c d : Nat} {a b : Connection T}
    (ha : Watching R env o parse c s a) (hb : Watching R env o parse d s b) :
    (∃ ctx, s.editor.core.clients.map.get c = some ctx ∧ a.state.view.map (·.buffer) = ctx.view.buffers) ∧
    (∃ ctx, s.editor.core.clients.map.get d = some ctx ∧ b.state.view.map (·.buffer) = ctx.view.buffers) ∧
    ∀ i ∈ a.state.view, ∀ j ∈ b.state.view, i.buffer = j.buffer → SameLines plain i j := by
  obtain ⟨cx, is, h1, h2, h3⟩ := watching_shows hR ho hp ha
  obtain ⟨dx, js, g1, g2, g3⟩ := watching_shows hR ho hp hb
  obtain ⟨n1, n2⟩ := shown_names h3
  obtain ⟨m1, m2⟩ := shown_names g3
  refine ⟨⟨cx, h1, ?_⟩, ⟨dx, g1, ?_⟩, ?_⟩
  · rw [h2, List.map_map]; exact n1
  · rw [g2, List.map_map]; exact m1
  · rw [h2, g2]
    intro i hi j hj hij
    obtain ⟨i, hi', rfl⟩ := List.mem_map.1 hi
    obtain ⟨j, hj', rfl⟩ := List.mem_map.1 hj
    obtain ⟨_, bi, si, ti, b1, b2, b3, _, b4, _, b5, b6, b7, b8⟩ := n2 i hi'
    obtain ⟨_, bj, sj, tj, c1, c2, c3, _, c4, _, c5, c6, c7, c8⟩ := m2 j hj'
    have hij : i.buffer = j.buffer := hij
    rw [hij, c1] at b1
    cases b1
    rw [c3] at b3
    cases b3
    refine ⟨b5.trans c5.symm, ?_, ?_, ?_, ?_⟩
    · exact b6.trans ((b4.symm.trans c4).trans c6.symm)
    · intro h; exact b7 (List.map_eq_nil_iff.1 h)
    · intro h; exact c7 (List.map_eq_nil_iff.1 h)
    · intro l hl m hm
      obtain ⟨l, hl', rfl⟩ := List.mem_map.1 hl
      obtain ⟨m, hm', rfl⟩ := List.mem_map.1 hm
      refine ⟨(b8 l hl').1.trans (c8 m hm').1.symm, ?_⟩
      have e1 : (seenLens o l).lines.map plain = l.lines.map (·.text) := by
        show (l.lines.map o.decorated).map plain = _
        rw [List.map_map]; exact List.map_congr_left fun x _ => hpl x
      have e2 : (seenLens o m).lines.map plain = m.lines.map (·.text) := by
        show (m.lines.map o.decorated).map plain = _
        rw [List.map_map]; exact List.map_congr_left fun x _ => hpl x
      rw [e1, e2, (b8 l hl').2, (c8 m hm').2]

/-! ## Two users -/

/-- The first user opens a file; the second one, which joined, another one and then the same one; both move in it. -/
def restAgree : List SafeDo :=
  [.call 1 (.edit ['f'] false), .call 2 (.edit ['g'] false), .call 2 (.edit ['f'] false), .call 1 (.keys [press 'l', press 'l']),
   .call 2 (.keys [press 'l']), .junk 1 (str!"hello")]

def connectedB (c : Nat) (s : Server LuaState) : Bool :=
  s.index.contains c && (notesTo c s.written).isEmpty && decide (s.delivered ≤ s.editor.core.out.length) &&
    (screen c (s.editor.core.out.drop s.delivered)).isSome

def seesB (w : World) (c : Nat) (name : Str) : Bool :=
  match w.clients.map.get c with | some ctx => ctx.view.buffers.contains name | none => false

/-- the client of a user that has read everything -/
def clientB (c : Nat) (s : Server LuaState) : R (Connection (List (Str × Face))) :=
  Connection.new.run fragmentTexts JsonText.parse
    ((readLines ((wiresTo c s.written).flatMap fun w => frame (w.encode fragmentTexts))).map .line)

def showsB (c : Nat) (s : Server LuaState) : Bool :=
  match clientB c s with | .ok conn => conn.state.view.map (·.buffer) == [['f']] | .error _ => false

/-- Both users connect and go on as above; `extra` holds at the end. -/
def agreeB (extra : Server LuaState → Bool) : Bool :=
  match userServer with
  | .error _ => false
  | .ok s1 => connectedB 1 s1 && safeDoB (delivered5 s1) (.join 2) && userB 1 (delivered5 s1) (.join 2 :: restAgree) &&
    match (delivered5 s1).turn safeEnvA true (.join 2) with
    | .ok (s2, false) => connectedB 2 s2 && seesB s2.editor.core 2 BUFFER_DEBUG && userB 2 (delivered5 s2) restAgree &&
      match (delivered5 s2).loop (userSteps restAgree) with
      | .ok (s, none) => decide (s.delivered = s.editor.core.out.length) && decide (∀ n ∈ notesTo 1 s.written, Spec.Fits n) &&
        decide (∀ n ∈ notesTo 2 s.written, Spec.Fits n) && extra s
      | _ => false
    | _ => false

theorem loop_five {s : Server LuaState} {steps : List (Server.Step LuaState)} :
    s.loop ([.deliver [], .deliver [], .deliver [], .deliver [], .deliver []] ++ steps) = (delivered5 s).loop steps := rfl

theorem lines_map (l : List Str) : linesOf (l.map Connection.Step.line) = l := by
  induction l with
  | nil => rfl
  | cons x l ih => simp only [List.map_cons, linesOf, List.filterMap_cons] at ih ⊢; rw [ih]

/-- What such a run is: two users who are in the situation of C83, to the end. -/
theorem agree_world {extra : Server LuaState → Bool} (key : agreeB extra = true) : ∃ s,
    (∃ s0 steps, Connected .ascii envA 1 s0 ∧ UserSchedule .ascii envA.seg 1 s0 steps ∧ s0.loop steps = .ok (s, none)) ∧
    (∃ s0 steps, Connected .ascii envA 2 s0 ∧ UserSchedule .ascii envA.seg 2 s0 steps ∧ s0.loop steps = .ok (s, none)) ∧
    (∀ n ∈ notesTo 1 s.written, Spec.Fits n) ∧ (∀ n ∈ notesTo 2 s.written, Spec.Fits n) ∧
    s.delivered = s.editor.core.out.length ∧ extra s = true := by
  have no : AsciiStr ([] : Str) := by intro c hc; cases hc
  obtain ⟨e, he, r0⟩ := rules_start rules_ascii safeEnvA_ok str!"s" [] (args := []) (cwdText := []) no no (asciiStrB_iff.1 rfl)
  obtain ⟨s1, h1, hi1, hw1, u1⟩ := C83_first safeEnvA_ok no no (asciiStrB_iff.1 rfl) he 1
  have hus : userServer = .ok s1 := by
    unfold userServer
    rw [he]
    show (((Server.start e).turn safeEnvA true (.join 1)).bind _) = _
    rw [h1]
    rfl
  unfold agreeB at key
  rw [hus] at key
  simp only [Bool.and_eq_true] at key
  obtain ⟨⟨⟨k1, k2⟩, k3⟩, key⟩ := key
  have hv : SafeEvent .ascii engA safeEnvA (Server.start e) (.join 1) :=
    ⟨List.not_mem_nil, fun _ => (new_world he).2.1⟩
  have r1 : SafeServer .ascii s1 := .event safeEnvA_ok r0 hv h1
  have v1 : ServerRun s1 := .event (.start e) h1
  have rd : SafeServer .ascii (delivered5 s1) := .deliver _ (.deliver _ (.deliver _ (.deliver _ (.deliver _ r1))))
  have vd : ServerRun (delivered5 s1) := .deliver _ (.deliver _ (.deliver _ (.deliver _ (.deliver _ v1))))
  have hj := safeDoB_ok (safe_server rules_ascii rd).2 k2
  have conn : ∀ {c s}, connectedB c s = true → SafeServer .ascii s → ServerRun s → UpToDate envA s.editor.core c → Connected .ascii envA c s := by
    intro c s h r v u
    unfold connectedB at h
    simp only [Bool.and_eq_true, List.contains_iff_mem, List.isEmpty_iff, decide_eq_true_eq] at h
    exact ⟨r, v, h.1.1.1, u, h.1.1.2, h.1.2, h.2⟩
  have sched1 := userB_ok rd k3
  split at key
  · rename_i s2 h2
    simp only [Bool.and_eq_true] at key
    obtain ⟨⟨⟨k4, k5⟩, k6⟩, key⟩ := key
    have r2 : SafeServer .ascii s2 := .event safeEnvA_ok rd hj h2
    have v2 : ServerRun s2 := .event vd h2
    have rd2 : SafeServer .ascii (delivered5 s2) := .deliver _ (.deliver _ (.deliver _ (.deliver _ (.deliver _ r2))))
    have u2 := (C83_joins rd safeEnvA_ok hj h2 (by
      unfold seesB at k5
      split at k5
      · rename_i ctx hctx
        exact ⟨ctx, hctx, by simpa using k5⟩
      · cases k5)).2
    have sched2 := userB_ok rd2 k6
    split at key
    · rename_i s h3
      simp only [Bool.and_eq_true, decide_eq_true_eq] at key
      obtain ⟨⟨⟨k7, k8⟩, k9⟩, k10⟩ := key
      refine ⟨s, ⟨s1, [.deliver [], .deliver [], .deliver [], .deliver [], .deliver []] ++ userSteps (.join 2 :: restAgree),
        conn k1 r1 v1 u1, ?_, ?_⟩, ⟨s2, [.deliver [], .deliver [], .deliver [], .deliver [], .deliver []] ++ userSteps restAgree,
        conn k4 r2 v2 u2, ?_, ?_⟩, k8, k9, k7, k10⟩
      · exact ⟨List.not_mem_nil, List.not_mem_nil, List.not_mem_nil, List.not_mem_nil, List.not_mem_nil, sched1⟩
      · rw [loop_five]
        show (delivered5 s1).loop (.event safeEnvA true (.join 2) :: _) = _
        rw [Server.loop, h2]
        exact h3
      · exact ⟨List.not_mem_nil, List.not_mem_nil, List.not_mem_nil, List.not_mem_nil, List.not_mem_nil, sched2⟩
      · rw [loop_five]
        exact h3
    · cases key
  · cases key

/-- C106_same applies to two users with the same file on their screens. -/
example : ∃ s a b, Watching .ascii envA fragmentTexts JsonText.parse 1 s a ∧ Watching .ascii envA fragmentTexts JsonText.parse 2 s b ∧
    a.state.view.map (·.buffer) = [['f']] ∧ b.state.view.map (·.buffer) = [['f']] := by
  obtain ⟨s, h1, h2, f1, f2, hall, h⟩ := agree_world (extra := fun s => showsB 1 s && showsB 2 s) (by decide +kernel)
  rw [Bool.and_eq_true] at h
  have read : ∀ {c}, showsB c s = true → ∃ conn, clientB c s = .ok conn ∧ conn.state.view.map (·.buffer) = [['f']] := by
    intro c h
    unfold showsB at h
    split at h
    · rename_i cn hcn
      exact ⟨cn, hcn, by simpa using h⟩
    · cases h
  obtain ⟨a, a1, a2⟩ := read h.1
  obtain ⟨b, b1, b2⟩ := read h.2
  exact ⟨s, a, b, ⟨h1, f1, ⟨_, lines_map _, a1⟩, hall⟩, ⟨h2, f2, ⟨_, lines_map _, b1⟩, hall⟩, a2, b2⟩

end Ced.Props

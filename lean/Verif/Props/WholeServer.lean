import Verif.Spec.WholeServer
import Verif.Props.Whole
import Verif.Props.UserTerminal

/-! # C96: what the users of a server see are the texts themselves -/

namespace Ced.Props
open Spec PieceTable Scripts Tui

/-- The states of such sessions. -/
def WholeSession (g : Segmentation) (w : World) : Prop := AnyCharsHistory g w ∧ WholeHistory w

theorem rules_whole {g : Segmentation} (hg : IsSegmentation g) : RulesOk (.whole g) (WholeSession g) where
  seg h := by rw [h.1]; exact hg
  start cwd args cwdText hs _ _ := by
    obtain ⟨w, h1, h2, _⟩ := C95_start (by rw [hs.1]; exact hg) cwd args cwdText
    exact ⟨w, h1, by rw [← hs.1]; exact h2, .start h1⟩
  step k hs hf h := by
    obtain ⟨w', h1, h2⟩ := C95_step hg k.1 hs.1 hf h.1
    exact ⟨w', h1, h2, .step k.2 h.2 (by rw [hs.1]; exact hg) hf h1⟩
  history k := any_ordinary_history k.1
  ordinary h := any_ordinary h.1
  join h := ⟨h, trivial⟩
  leave := ⟨trivial, trivial⟩
  notify := ⟨trivial, trivial⟩
  debug _ := ⟨trivial, trivial⟩
  error _ _ := ⟨trivial, trivial⟩
  lit _ := trivial
  app _ _ := trivial
  good k hb := ((any_calm hg k.1).drawn.good _ _ hb).ends

/-- what is drawn is the text -/
theorem shows_exact {w : World} (h : WholeHistory w) {name : Str} {item : ViewParamsItem} (hi : ShowsText w name item) :
    ShowsBuffer w name item := by
  obtain ⟨h1, b, s, t, hb, hs, ht, _, _, _, h2⟩ := hi
  have := (C96_text h hb hs).1
  rw [ht] at this
  cases this
  exact ⟨h1, b, _, hb, hs, h2⟩

variable {eng : LuaEngine} {env : EditorEnv LuaState} {e : Ced.Editor LuaState}

/-- C96: a server starts. -/
theorem C96_server_start {g : Segmentation} (ok : SafeEnv (.whole g) eng env) (session : Str) (cwd : Path) (args cwdText : Str) :
    ∃ e, Ced.Editor.new env ⟨session, []⟩ (Scripts.prelude eng) session cwd args cwdText = .ok e ∧
      SafeServer (.whole g) (Server.start e) :=
  rules_start (rules_whole ok.seg.2) ok session cwd trivial trivial trivial

/-- C96: as long as its clients keep to the rules, the server does not crash, and in every state it reaches, the text of every
buffer is what `text()` says, of whole characters. -/
theorem C96_server_loop {g : Segmentation} (hg : IsSegmentation g) {steps : List (Server.Step LuaState)} {s : Server LuaState}
    (r : SafeServer (.whole g) s) (hs : SafeSchedule (.whole g) s steps) :
    ∃ s' rest, s.loop steps = .ok (s', rest) ∧ SafeServer (.whole g) s' ∧
      ∀ n b t, s'.editor.core.buffers.get n = some b → Shows b.content t → b.content.text = .ok t ∧ IsText t := by
  obtain ⟨s', rest, h1, h2, _⟩ := rules_loop (rules_whole hg) r hs
  exact ⟨s', rest, h1, h2, fun n b t hb ht => C96_text (safe_server (rules_whole hg) h2).2.2 hb ht⟩

variable {T : Type} {o : Ornament T} {parse : Str → Option Json}

/-- C96, end to end: a user sees, whenever everything was delivered and read, the present state of its view: all the lines of the
texts of its buffers, whatever their characters. -/
theorem C96_user {g : Segmentation} (hg : IsSegmentation g) (ho : OrnamentOk o) (hp : JsonText.ReadsBack parse) {enw : Env}
    (hseg : enw.seg = g) {s s' : Server LuaState} (r : SafeServer (.whole g) s) (hr : ServerRun s) {c : Nat} (hc : c ∈ s.index)
    (hu : UpToDate enw s.editor.core c) (hnew : notesTo c s.written = []) (h0 : s.delivered ≤ s.editor.core.out.length)
    (hsome : (screen c (s.editor.core.out.drop s.delivered)).isSome = true)
    {steps : List (Server.Step LuaState)} (hs : UserSchedule (.whole g) g c s steps) (h : s.loop steps = .ok (s', none))
    (hf : ∀ n ∈ notesTo c s'.written, Spec.Fits n) {cs : List Connection.Step} {conn : Connection T}
    (hread : linesOf cs = readLines ((wiresTo c s'.written).flatMap fun w => frame (w.encode o)))
    (hrun : Connection.new.run o parse cs = .ok conn) (hall : s'.delivered = s'.editor.core.out.length) :
    ∃ ctx items, s'.editor.core.clients.map.get c = some ctx ∧ s'.editor.core.viewParams enw c = .ok (c, items) ∧
      conn.state.view = items.map (seenItem o) ∧ List.Forall₂ (ShowsBuffer s'.editor.core) ctx.view.buffers items := by
  obtain ⟨ctx, items, h1, h2, h3, h4⟩ := rules83_user (rules_whole hg) ho hp hseg r hr hc hu hnew h0 hsome hs h hf hread hrun hall
  obtain ⟨s1, rest, h5, r1, _⟩ := rules83_loop (rules_whole hg) hseg r hc hs hu
  rw [h] at h5
  cases h5
  exact ⟨ctx, items, h1, h2, h3, forall2_mono h4 fun _ _ _ hx => shows_exact (safe_server (rules_whole hg) r1).2.2 hx⟩

/-- C96, for the first client of a server, from the start of the server. -/
theorem C96_session {g : Segmentation} (ho : OrnamentOk o) (hp : JsonText.ReadsBack parse) (ok : SafeEnv (.whole g) eng env)
    {session : Str} {cwd : Path} {args cwdText : Str}
    (hnew : Ced.Editor.new env ⟨session, []⟩ (Scripts.prelude eng) session cwd args cwdText = .ok e) (c : Nat)
    {steps : List (Server.Step LuaState)}
    (hs : ∀ s, (Server.start e).turn env true (.join c) = .ok (s, false) → UserSchedule (.whole g) env.core.seg c s steps) :
    ∃ s', (Server.start e).loop (.event env true (.join c) :: steps) = .ok s' ∧ SafeServer (.whole g) s'.1 ∧ ∀ s1, s' = (s1, none) →
      (∀ n ∈ notesTo c s1.written, Spec.Fits n) → s1.delivered = s1.editor.core.out.length →
      ∀ {cs : List Connection.Step} {conn : Connection T},
        linesOf cs = readLines ((wiresTo c s1.written).flatMap fun w => frame (w.encode o)) →
        Connection.new.run o parse cs = .ok conn →
        ∃ ctx items, s1.editor.core.clients.map.get c = some ctx ∧ conn.state.view = items.map (seenItem o) ∧
          List.Forall₂ (ShowsBuffer s1.editor.core) ctx.view.buffers items := by
  obtain ⟨s', h1, h2, h3⟩ := rules83_session (rules_whole ok.seg.2) ho hp ok trivial trivial trivial hnew c hs
  refine ⟨s', h1, h2, fun s1 e hf hall cs conn hl hrun => ?_⟩
  obtain ⟨ctx, items, h4, h5, h6⟩ := h3 s1 e hf hall hl hrun
  subst e
  exact ⟨ctx, items, h4, h5, forall2_mono h6 fun _ _ _ hx => shows_exact (safe_server (rules_whole ok.seg.2) h2).2.2 hx⟩

variable {p : Paint T} {errText : Str → Str}

/-- C96: and a terminal draws them. -/
theorem C96_terminal {g : Segmentation} (hg : IsSegmentation g) (ho : OrnamentOk o) (hp : JsonText.ReadsBack parse) {enw : Env} (hseg : enw.seg = g)
    {s s' : Server LuaState} (r : SafeServer (.whole g) s) (hr : ServerRun s) {c : Nat} (hc : c ∈ s.index)
    (hu : UpToDate enw s.editor.core c) (hnew : notesTo c s.written = []) (h0 : s.delivered ≤ s.editor.core.out.length)
    (hsome : (screen c (s.editor.core.out.drop s.delivered)).isSome = true)
    {steps : List (Server.Step LuaState)} (hs : UserSchedule (.whole g) g c s steps) (h : s.loop steps = .ok (s', none))
    (hf : ∀ n ∈ notesTo c s'.written, Spec.Fits n) (hall : s'.delivered = s'.editor.core.out.length)
    {width height : Nat} {files : List Str} {t : Term T} (ht : Term.new width height files = .ok t) {ts : List Tui.Step} {a : App T}
    {ds : List Draw} (hread : linesIn ts = readLines ((wiresTo c s'.written).flatMap fun w => frame (w.encode o)))
    (hrun : App.run o p parse errText { term := t, queue := [] } ts = .ok (a, ds)) (hq : a.queue = []) :
    ∃ ctx items d, s'.editor.core.clients.map.get c = some ctx ∧
      List.Forall₂ (ShowsBuffer s'.editor.core) ctx.view.buffers items ∧
      lastView ds = some d ∧ ViewDrawn p (items.map (seenItem o)) d ∧
      (a.term.connection.state.menu = none →
        ViewDrawnAt p (lastSize (width, height) ts).1 (lastSize (width, height) ts).2 (items.map (seenItem o)) d) := by
  obtain ⟨ctx, items, d, h1, h2, h3⟩ := rules83_terminal (rules_whole hg) ho hp hseg r hr hc hu hnew h0 hsome hs h hf hall ht hread hrun hq
  obtain ⟨s1, rest, h5, r1, _⟩ := rules83_loop (rules_whole hg) hseg r hc hs hu
  rw [h] at h5
  cases h5
  exact ⟨ctx, items, d, h1, forall2_mono h2 fun _ _ _ hx => shows_exact (safe_server (rules_whole hg) r1).2.2 hx, h3⟩

/-! ### An example: the server of Props/AnyServer.lean -/

theorem safeEnvE_whole : SafeEnv (.whole clusters) engE safeEnvE := ⟨standardE, ⟨rfl, clusters_ok⟩, sameA, plainCompile_engine⟩

theorem serverE0_whole : ∃ e s, Ced.Editor.new safeEnvE ⟨str!"s", []⟩ (Scripts.prelude engE) str!"s" [] (str!"é") [] = .ok e ∧
    (Server.start e).turn safeEnvE true (.join 1) = .ok (s, false) ∧ serverE0 = .ok s ∧ SafeServer (.whole clusters) s := by
  obtain ⟨e, s, he, ht, hs, _⟩ := serverE0_ok
  exact ⟨e, s, he, ht, hs, .event (ev := .join 1) safeEnvE_whole (.start safeEnvE_whole trivial trivial trivial he)
    ⟨List.not_mem_nil, fun _ => (new_world he).2.1⟩ ht⟩

/-- The schedule keeps to the rules: `C96_session`, `C96_user` and `C96_server_loop` apply. -/
theorem userW : ∃ s, serverE0 = .ok s ∧ SafeServer (.whole clusters) s ∧ UserSchedule (.whole clusters) clusters 1 s stepsE := by
  obtain ⟨e, s, he, ht, hs, r⟩ := serverE0_whole
  have f0 := factsE0
  rw [hs] at f0
  have f0 := Option.some.inj f0
  simp only [factsE, FactsE.mk.injEq] at f0
  obtain ⟨i0, c0, b0, d0, _⟩ := f0
  have hnone : s.editor.core.buffers.get ['e'] = none := by
    cases h : s.editor.core.buffers.get ['e'] with
    | none => rfl
    | some b => rw [h] at b0; cases b0
  have hopen : SafeLine (.whole clusters) engE safeEnvE s.editor 1 ((Call.edit ['e'] false).request (.number 1)).encode.write :=
    call_line (call := .edit ['e'] false) ⟨openE_safe c0 hnone d0, fun b _ _ _ _ hb => by rw [hnone] at hb; cases hb⟩
  refine ⟨s, hs, r, rfl, rfl, ⟨engE, safeEnvE_whole, by rw [i0]; exact List.mem_singleton.2 rfl, hopen⟩, .inl i0, fun s1 h1 => ?_⟩
  have f1 := factsE1
  have e1 : serverE1 = .ok s1 := by
    unfold serverE1
    rw [hs]
    show (s.turn safeEnvE true _ >>= _) = _
    rw [h1]
    rfl
  rw [e1] at f1
  have f1 := Option.some.inj f1
  simp only [factsE, FactsE.mk.injEq] at f1
  obtain ⟨i1, _, t1, _, s1', l1, m1⟩ := f1
  have r1 : SafeServer (.whole clusters) s1 := .event (ev := .message 1 ((Call.edit ['e'] false).request (.number 1)).encode.write)
    safeEnvE_whole r ⟨by rw [i0]; exact List.mem_singleton.2 rfl, hopen⟩ h1
  refine deliver_many fun s2 e2 x2 => ⟨rfl, rfl, ⟨engE, safeEnvE_whole, by rw [x2, i1]; exact List.mem_singleton.2 rfl,
    call_line (call := .keys [press 'j']) ?_⟩, .inl (by rw [x2, i1]), fun s3 _ => ?_⟩
  · intro m hm
    rw [e2] at hm ⊢
    have : m = .normal := by
      have := modeB_ok hm
      rw [m1] at this
      exact (Option.some.inj this).symm
    subst this
    refine ⟨fun op ho => ?_, fun _ _ => trivial⟩
    have : op = .move 1 .down false := by
      have h : KeyMode.normal.op 1 (press 'j').display = some (.move 1 .down false) := by decide
      rw [h] at ho
      exact (Option.some.inj ho).symm
    subst this
    exact ⟨downE_safe (safe_server (rules_whole clusters_ok) r1).2.1 s1' l1 t1, trivial⟩
  · exact deliver_many (n := 9) (steps := []) fun _ _ _ => trivial

end Ced.Props

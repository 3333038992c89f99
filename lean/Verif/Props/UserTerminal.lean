import Verif.Props.UserScreen
import Verif.Props.TuiSize

/-! # C83: what the terminal of a user shows -/

namespace Ced.Props
open Spec Scripts Tui

variable {T : Type} {o : Ornament T} {p : Paint T} {parse : Str → Option Json} {errText : Str → Str}

theorem steps_split {steps : List Tui.Step} {l : Str} (h : l ∈ linesIn steps) : ∃ s1 s2, steps = s1 ++ .line l :: s2 := by
  unfold linesIn at h
  obtain ⟨x, hx, he⟩ := List.mem_filterMap.1 h
  cases x with
  | line l' => cases he; exact List.append_of_mem hx
  | _ => cases he

theorem screen_some {c : Nat} {out : List Broadcast} (h : (screen c out).isSome = true) : ∃ items, .view items ∈ notesFor c out := by
  rw [screen_last] at h
  unfold lastOf at h
  obtain ⟨n, hn, hv⟩ := List.findSome?_isSome_iff.1 h
  rw [List.mem_reverse] at hn
  cases n with
  | view items => exact ⟨items, hn⟩
  | _ => cases hv

section general
variable {R : Rules} {H : World → Prop} (ro : RulesOk R H)
include ro

theorem rules83_terminal (ho : OrnamentOk o) (hp : JsonText.ReadsBack parse) {enw : Env} {seg : Segmentation} (hseg : enw.seg = seg)
    {s s' : Server LuaState} (r : SafeServer R s) (hr : ServerRun s) {c : Nat} (hc : c ∈ s.index)
    (hu : UpToDate enw s.editor.core c) (hnew : notesTo c s.written = []) (h0 : s.delivered ≤ s.editor.core.out.length)
    (hsome : (screen c (s.editor.core.out.drop s.delivered)).isSome = true)
    {steps : List (Server.Step LuaState)} (hs : UserSchedule R seg c s steps) (h : s.loop steps = .ok (s', none))
    (hf : ∀ n ∈ notesTo c s'.written, Spec.Fits n) (hall : s'.delivered = s'.editor.core.out.length)
    {width height : Nat} {files : List Str} {t : Term T} (ht : Term.new width height files = .ok t) {ts : List Tui.Step} {a : App T}
    {ds : List Draw} (hread : linesIn ts = readLines ((wiresTo c s'.written).flatMap fun w => frame (w.encode o)))
    (hrun : App.run o p parse errText { term := t, queue := [] } ts = .ok (a, ds)) (hq : a.queue = []) :
    ∃ ctx items d, s'.editor.core.clients.map.get c = some ctx ∧
      List.Forall₂ (ShowsText s'.editor.core) ctx.view.buffers items ∧
      lastView ds = some d ∧ ViewDrawn p (items.map (seenItem o)) d ∧
      (a.term.connection.state.menu = none →
        ViewDrawnAt p (lastSize (width, height) ts).1 (lastSize (width, height) ts).2 (items.map (seenItem o)) d) := by
  obtain ⟨xs, h1, h2⟩ := app_connection hrun
  have h3 := conn_run_append (new_run (o := o) (parse := parse) ht) h2
  obtain ⟨ctx, items, k1, k2, k3, k4⟩ := rules83_user ro ho hp hseg r hr hc hu hnew h0 hsome hs h hf
    (by rw [linesOf_append, h1, no_lines, List.nil_append, hread]) h3 hall
  -- a view was written to the client
  obtain ⟨ha, hst⟩ := user_schedule ro r hs h
  obtain ⟨her, hstop, _, _⟩ := server_run (safe_server ro r).1
  obtain ⟨hn, ⟨rest, hpre⟩, _, _⟩ := C65_none_lost hr (menus_editorRun (ced_run her)) hstop hc h0 ha hst h
  have hsome' : (screen c (s'.editor.core.out.drop s.delivered)).isSome = true := by
    rw [← hpre, List.drop_append_of_le_length h0, screen_append]
    cases screen c rest with
    | none => exact hsome
    | some _ => rfl
  obtain ⟨sent, hsent⟩ := screen_some hsome'
  rw [hnew, List.nil_append, hall, List.take_length] at hn
  rw [← hn] at hsent
  have hfit := hf _ hsent
  have hline : ((Wire.note (.view sent)).encode o).write ∈ linesIn ts := by
    rw [hread, show (wiresTo c s'.written).flatMap (fun w => frame (w.encode o)) =
      ((wiresTo c s'.written).map (Wire.encode o)).flatMap frame by rw [List.flatMap_map], C62_framing, List.map_map]
    refine List.mem_map.2 ⟨.note (.view sent), ?_, rfl⟩
    rw [← notesOf_wiresTo] at hsent
    unfold notesOf at hsent
    obtain ⟨x, hx, he⟩ := List.mem_filterMap.1 hsent
    cases x with
    | response _ => cases he
    | note n => cases he; exact hx
  obtain ⟨s1, s2, rfl⟩ := steps_split hline
  obtain ⟨d, e1, e2⟩ := C76_drawn ho hp hfit hrun hq
  refine ⟨ctx, items, d, k1, k4, e1, k3 ▸ e2, fun hm => ?_⟩
  obtain ⟨d', e3, e4⟩ := C76_fitted ho hp ht hfit hrun hq hm
  rw [e1] at e3
  cases e3
  exact k3 ▸ e4

end general

/-- C83, to the terminal: the terminal client of such a user, started with any files and after any schedule of its tasks
(keys, sizes of the screen, lines read), has drawn as its last view, once it has read and treated everything, the present
state of the view of the user: the rows of all the buffers of the view, with all their lines, cut to the screen as in C60; and
unless a menu is open it is drawn for the last size of the screen that was told. -/
theorem C83_terminal (ho : OrnamentOk o) (hp : JsonText.ReadsBack parse) {enw : Env} {seg : Segmentation} (hseg : enw.seg = seg)
    {s s' : Server LuaState} (r : SafeServer .ascii s) (hr : ServerRun s) {c : Nat} (hc : c ∈ s.index)
    (hu : UpToDate enw s.editor.core c) (hnew : notesTo c s.written = []) (h0 : s.delivered ≤ s.editor.core.out.length)
    (hsome : (screen c (s.editor.core.out.drop s.delivered)).isSome = true)
    {steps : List (Server.Step LuaState)} (hs : UserSchedule .ascii seg c s steps) (h : s.loop steps = .ok (s', none))
    (hf : ∀ n ∈ notesTo c s'.written, Spec.Fits n) (hall : s'.delivered = s'.editor.core.out.length)
    {width height : Nat} {files : List Str} {t : Term T} (ht : Term.new width height files = .ok t) {ts : List Tui.Step} {a : App T}
    {ds : List Draw} (hread : linesIn ts = readLines ((wiresTo c s'.written).flatMap fun w => frame (w.encode o)))
    (hrun : App.run o p parse errText { term := t, queue := [] } ts = .ok (a, ds)) (hq : a.queue = []) :
    ∃ ctx items d, s'.editor.core.clients.map.get c = some ctx ∧
      List.Forall₂ (ShowsBuffer s'.editor.core) ctx.view.buffers items ∧
      lastView ds = some d ∧ ViewDrawn p (items.map (seenItem o)) d ∧
      (a.term.connection.state.menu = none →
        ViewDrawnAt p (lastSize (width, height) ts).1 (lastSize (width, height) ts).2 (items.map (seenItem o)) d) := by
  obtain ⟨s1, rest, h1, r1, _⟩ := C83_loop hseg r hc hs hu
  rw [h] at h1
  cases h1
  obtain ⟨ctx, items, d, e1, e2, e3⟩ := rules83_terminal rules_ascii ho hp hseg r hr hc hu hnew h0 hsome hs h hf hall ht hread hrun hq
  exact ⟨ctx, items, d, e1, forall2_mono e2 fun _ _ _ hx => shows_ascii (safe_server rules_ascii r1).2 hx, e3⟩

/-- C95, to the terminal: the same in texts of any characters. -/
theorem C95_terminal {g : Segmentation} (hg : IsSegmentation g) (ho : OrnamentOk o) (hp : JsonText.ReadsBack parse) {enw : Env} (hseg : enw.seg = g)
    {s s' : Server LuaState} (r : SafeServer (.any g) s) (hr : ServerRun s) {c : Nat} (hc : c ∈ s.index)
    (hu : UpToDate enw s.editor.core c) (hnew : notesTo c s.written = []) (h0 : s.delivered ≤ s.editor.core.out.length)
    (hsome : (screen c (s.editor.core.out.drop s.delivered)).isSome = true)
    {steps : List (Server.Step LuaState)} (hs : UserSchedule (.any g) g c s steps) (h : s.loop steps = .ok (s', none))
    (hf : ∀ n ∈ notesTo c s'.written, Spec.Fits n) (hall : s'.delivered = s'.editor.core.out.length)
    {width height : Nat} {files : List Str} {t : Term T} (ht : Term.new width height files = .ok t) {ts : List Tui.Step} {a : App T}
    {ds : List Draw} (hread : linesIn ts = readLines ((wiresTo c s'.written).flatMap fun w => frame (w.encode o)))
    (hrun : App.run o p parse errText { term := t, queue := [] } ts = .ok (a, ds)) (hq : a.queue = []) :
    ∃ ctx items d, s'.editor.core.clients.map.get c = some ctx ∧
      List.Forall₂ (ShowsText s'.editor.core) ctx.view.buffers items ∧
      lastView ds = some d ∧ ViewDrawn p (items.map (seenItem o)) d ∧
      (a.term.connection.state.menu = none →
        ViewDrawnAt p (lastSize (width, height) ts).1 (lastSize (width, height) ts).2 (items.map (seenItem o)) d) :=
  rules83_terminal (rules_any hg) ho hp hseg r hr hc hu hnew h0 hsome hs h hf hall ht hread hrun hq

/-- The terminal of the first client of the example of Props/UserScreen.lean, on a screen of 50 columns and 8 rows: what its
last view is, once it has read and treated everything. -/
def userTerminal : Option Draw :=
  match userEnd with
  | .error _ => none
  | .ok s =>
    let ls := readLines ((wiresTo 1 s.written).flatMap fun w => frame (w.encode fragmentTexts))
    match (do
      let t ← Term.new 50 8 []
      App.run fragmentTexts bare JsonText.parse (fun _ => []) { term := t, queue := [] }
        (ls.map Tui.Step.line ++ List.replicate ls.length Tui.Step.treat)) with
    | .error _ => none
    | .ok (a, ds) => if a.queue.isEmpty then lastView ds else none

/-- both files, as they are after the deletion -/
example : userTerminal = some (.at 0 0 false (Str.join str!"\r\n"
    [str!"-[f][1:1]-----------------------------------------", str!"1234 ",
     str!"-[g][1:2]-----------------------------------------", str!" ", str!"b "])) := by decide +kernel

end Ced.Props

import Verif.Proofs.Reach

/-!
# Properties of editing: C01–C09, C13, C16

`Shows t s` (in `Spec/Reach.lean`): every observation of the buffer's length and of its byte ranges is that
of the text `s`.  `AnyHistory`, `ForwardHistory`, `CleanHistory`: buffers produced by calls of the interface.
-/

namespace Ced.Props
open Spec PieceTable

/-! ## A concrete buffer used to show that the hypotheses can be met

`"ab\ncd"`, then `"XY"` inserted at 1 (`"aXYb\ncd"`), then the range 3..5 deleted (`"aXYcd"`). -/

/-- the handle contract the code relies on -/
def H : StaleHandle := { follows := true, staleOffset := 0 }

/-- `"ab\ncd"` -/
def T0 : PieceTable := PieceTable.withText [97, 98, 10, 99, 100]

/-- `"aXYb\ncd"` -/
def T1 : PieceTable := T0.insert 1 [88, 89]

/-- `"aXYcd"` -/
def T2 : PieceTable :=
  { original := [97, 98, 10, 99, 100], added := [88, 89],
    pieces := [⟨0, 0, 1, true⟩, ⟨1, 0, 2, false⟩, ⟨3, 3, 2, true⟩],
    newlines := [], lastAction := some .delete,
    undos := [[⟨0, 0, 1, true⟩, ⟨1, 0, 2, false⟩, ⟨3, 1, 4, true⟩], [⟨0, 0, 5, true⟩]], redos := [] }

theorem T1_forward : ForwardHistory T1 :=
  .edit (h := H) (e := .insert 1 [88, 89]) (b := true) (.withText (by simp) trivial) rfl
    ⟨by simp, by simp⟩ (by simp [Edit.text]) rfl

theorem T2_forward : ForwardHistory T2 :=
  .edit (t := T1) (h := H) (e := .delete 3 2) (b := true) T1_forward rfl ⟨by simp, by simp⟩ (by simp [Edit.text])
    (by decide)

/-! ## C07 -/

/-- C07: a buffer reached by any history holds one well-defined text: there is exactly one text `s` such that
its length is the length of `s`, every range read that starts inside returns exactly the bytes of `s` in that
range (clipped at the end), and a range starting at or past the end returns nothing. -/
theorem C07_range_reads {t : PieceTable} (h : AnyHistory t) : ∃ s, Shows t s ∧ ∀ s', Shows t s' → s' = s :=
  ⟨t.content, shows_content (reachable_ready h).wf, fun _ h' => shows_unique h' (shows_content (reachable_ready h).wf)⟩

example : AnyHistory T2 := forward_any T2_forward
theorem T2_shows : Shows T2 [97, 88, 89, 99, 100] :=
  (shows_iff (reachable_ready T2_forward).wf).2 (by decide)

/-! ## C01 -/

/-- C01: inserting a non-empty text at `o` yields the old text with the text spliced in at `o`
(at the end when `o` is past the end). -/
theorem C01_insert {t : PieceTable} (h : AnyHistory t) {s : Bytes} (hs : Shows t s) (o : Nat) {x : Bytes}
    (hx : x ≠ []) : Shows (t.insert o x) (splice s o x) := by
  have hw := (reachable_ready h).wf
  have heff := (insert_eq hw hx o).1
  rw [← (shows_iff hw).1 hs]
  exact (shows_iff heff.wf).2 heff.content

/-- C01, appending. -/
theorem C01_append {t : PieceTable} (h : AnyHistory t) {s : Bytes} (hs : Shows t s) {x : Bytes}
    (hx : x ≠ []) : Shows (t.append x) (s ++ x) := by
  have hw := (reachable_ready h).wf
  have heff := (append_eq hw hx).1
  rw [← (shows_iff hw).1 hs]
  exact (shows_iff heff.wf).2 heff.content

example : AnyHistory T2 ∧ Shows T2 [97, 88, 89, 99, 100] ∧ Shows (T2.insert 2 [90]) [97, 88, 90, 89, 99, 100] :=
  ⟨forward_any T2_forward, T2_shows, C01_insert (forward_any T2_forward) T2_shows 2 (by simp)⟩

/-! ## C02 -/

/-- C02: deleting `n` bytes at `a` either completes and yields the old text without those bytes (clipped to the
buffer), or panics; it can only panic when the range starts inside the buffer and is empty or reaches its end. -/
theorem C02_delete {t : PieceTable} (h : AnyHistory t) {s : Bytes} (hs : Shows t s) {hd : StaleHandle}
    (hf : hd.follows = true) (a n : Nat) :
    (∃ t', t.delete hd a n = .ok t' ∧ Shows t' (cut s a n)) ∨
    (∃ e, t.delete hd a n = .error e ∧ a < s.length ∧ (n = 0 ∨ s.length ≤ a + n)) := by
  have hw := (reachable_ready h).wf
  have hc := (shows_iff hw).1 hs
  subst hc
  rcases delete_eq hf hw a n with ⟨u, e1, heff, _⟩ | ⟨e1, h1, h2, _⟩ | ⟨e1, _, h2, h3, _⟩
  · exact Or.inl ⟨u, e1, (shows_iff heff.wf).2 heff.content⟩
  · exact Or.inr ⟨_, e1, h2, Or.inl h1⟩
  · exact Or.inr ⟨_, e1, h2, Or.inr h3⟩

/-- C02: a non-empty range that does not reach the end is always deleted. -/
theorem C02_delete_inside {t : PieceTable} (h : AnyHistory t) {s : Bytes} (hs : Shows t s) {hd : StaleHandle}
    (hf : hd.follows = true) {a n : Nat} (hn : 0 < n) (hin : a + n < s.length) :
    ∃ t', t.delete hd a n = .ok t' ∧ Shows t' (cut s a n) := by
  rcases C02_delete h hs hf a n with h1 | ⟨_, _, _, h2 | h2⟩
  · exact h1
  · omega
  · omega

/-- C02: the whole text can always be deleted, whatever the external tree does with removed handles. -/
theorem C02_delete_all {t : PieceTable} (h : AnyHistory t) {s : Bytes} (hs : Shows t s) (hd : StaleHandle) :
    ∃ t', t.delete hd 0 s.length = .ok t' ∧ Shows t' [] := by
  have hw := (reachable_ready h).wf
  have hl : (t.action .delete).len = s.length := by
    rw [(action_WF hw .delete).len_eq, action_content hw .delete, (shows_iff hw).1 hs]
  refine ⟨{ (t.action .delete) with pieces := [], newlines := [] }, ?_, ?_, ?_⟩
  · unfold delete deleteCore; rw [if_pos ⟨rfl, hl.symm⟩]
  · rfl
  · intro a b _; rfl

example : ∃ t', T2.delete H 1 2 = .ok t' ∧ Shows t' [97, 99, 100] :=
  C02_delete_inside (forward_any T2_forward) T2_shows rfl (by omega) (by decide)

/-! ## C03 -/

/-- C03: replacing a range by a non-empty text yields prefix ++ text ++ suffix, when it completes (it does whenever
the deletion does), and one undo gives the old text back. -/
theorem C03_replace {t t' : PieceTable} (h : AnyHistory t) {s : Bytes} (hs : Shows t s) {hd : StaleHandle}
    (hf : hd.follows = true) {a n : Nat} {x : Bytes} (hx : x ≠ []) (ha : a ≤ s.length)
    (hr : t.replace hd a n x = .ok t') :
    Shows t' (s.take a ++ x ++ s.drop (a + n)) ∧ ∃ u, t'.undo = (u, true) ∧ Shows u s := by
  have hw := reachable_ready h
  have hc := (shows_iff hw.wf).1 hs
  subst hc
  obtain ⟨h1, h2, _⟩ := replace_eq hf hw hx hr
  have htxt : t'.abs.text = splice (cut t.content a n) a x := by rw [h2]; rfl
  refine ⟨(shows_iff h1.wf).2 ?_, ?_⟩
  · show t'.abs.text = _
    rw [htxt]
    unfold splice cut
    rw [List.take_append_of_le_length (by simp; omega), List.take_take, Nat.min_self]
    congr 1
    rw [List.drop_append_of_le_length (by simp; omega)]
    simp
  · obtain ⟨g1, g2⟩ := undo_refines h1
    rw [h2] at g2
    simp only [Editor.step, Editor.snapshot, Prod.mk.injEq] at g2
    refine ⟨t'.undo.1, by rw [← g2.2], (shows_iff g1.wf).2 ?_⟩
    show t'.undo.1.abs.text = _
    rw [g2.1]; rfl

/-- C03: replacing completes whenever the range is not empty and ends inside the text. -/
theorem C03_replace_inside {t : PieceTable} (h : AnyHistory t) {s : Bytes} (hs : Shows t s) {hd : StaleHandle}
    (hf : hd.follows = true) {a n : Nat} {x : Bytes} (hn : 0 < n) (hin : a + n < s.length) :
    ∃ t', t.replace hd a n x = .ok t' := by
  have hw := reachable_ready h
  have hc := (shows_iff hw.wf).1 hs
  subst hc
  have hwsb : t.startBulk.WF := action_WF hw.wf .bulk
  have hcsb : t.startBulk.content = t.content := action_content hw.wf .bulk
  unfold replace
  rcases delete_eq hf hwsb a n with ⟨u, e1, _⟩ | ⟨_, h1, _⟩ | ⟨_, _, _, h3, _⟩
  · exact ⟨_, by simp only [e1, except_bind_ok]; rfl⟩
  · omega
  · rw [hcsb] at h3; omega

example : ∃ t', T2.replace H 1 2 [48, 48, 48] = .ok t' ∧ Shows t' [97, 48, 48, 48, 99, 100] := by
  obtain ⟨t', e⟩ := C03_replace_inside (x := [48, 48, 48]) (hd := H) (forward_any T2_forward) T2_shows rfl
    (by omega : 0 < 2) (by decide : 1 + 2 < _)
  exact ⟨t', e, (C03_replace (forward_any T2_forward) T2_shows rfl (by simp) (by decide) e).1⟩

/-! ## C04 -/

/-- C04: any completed sequence of insert, append, delete, replace, undo and redo calls on a buffer holding `s`
produces exactly the text, and the answers, of an editor that stores whole texts. (Every prefix of a
completed sequence is a completed sequence, so this holds at every step.) -/
theorem C04_history {s : Bytes} {t0 : PieceTable}
    (h0 : (t0 = PieceTable.withText s ∧ s ≠ []) ∨ (t0 = PieceTable.new ∧ s = []))
    {ops : List (StaleHandle × Edit)} (hf : ∀ op ∈ ops, op.1.follows = true)
    (hne : ∀ op ∈ ops, ∀ x, op.2.text = some x → x ≠ [])
    {t : PieceTable} {answers : List Bool} (hrun : t0.run ops = .ok (t, answers)) :
    Shows t ((Editor.start s).run (ops.map (·.2))).1.text ∧
      answers = ((Editor.start s).run (ops.map (·.2))).2 := by
  have hready : t0.Ready ∧ t0.abs = Editor.start s := by
    rcases h0 with ⟨rfl, hs⟩ | ⟨rfl, rfl⟩
    · obtain ⟨h1, h2, _⟩ := withText_facts hs
      refine ⟨h1, ?_⟩
      unfold PieceTable.abs; rw [h2]; rfl
    · exact ⟨ready_new, rfl⟩
  obtain ⟨h1, h2⟩ := run_refines hready.1 hf (fun op hop => edit_nonEmpty (hne op hop)) hrun
  rw [hready.2] at h2
  rw [← h2]
  exact ⟨(shows_iff h1.wf).2 rfl, rfl⟩

/-- A completed history mixing all operations. -/
def opsEx : List (StaleHandle × Edit) :=
  [(H, .insert 1 [88, 89]), (H, .append [90]), (H, .delete 3 2), (H, .undo), (H, .redo), (H, .undo), (H, .undo),
   (H, .replace 1 2 [10, 10]), (H, .redo), (H, .undo), (H, .undo), (H, .redo)]

example : (∃ t a, T0.run opsEx = .ok (t, a)) ∧
    ((Editor.start [97, 98, 10, 99, 100]).run (opsEx.map (·.2))).1.text = [97, 10, 10, 99, 100] ∧
    ((Editor.start [97, 98, 10, 99, 100]).run (opsEx.map (·.2))).2 =
      [true, true, true, true, true, true, true, true, false, true, false, true] := by
  refine ⟨?_, by decide, by decide⟩
  have h : (match T0.run opsEx with | .ok _ => true | .error _ => false) = true := by decide
  cases hr : T0.run opsEx with
  | error e => rw [hr] at h; cases h
  | ok r => exact ⟨r.1, r.2, rfl⟩

/-! ## C05 -/

/-- The kind of an edit that can be part of a group. -/
def groupKind : Edit → Option Kind
  | .insert _ _ => some .insertion
  | .append _ => some .insertion
  | .delete _ _ => some .deletion
  | _ => none

/-- After this operation and its answer no group of kind `k` is open. -/
def Closes (k : Kind) : Option Edit → Option Bool → Prop
  | none, _ => True
  | some .redo, b => b = some true
  | some e, _ => groupKind e ≠ some k

/-- what the snapshot editor keeps: an open group has a snapshot to go back to -/
def GroupOk (e : Editor) : Prop := e.group = none ∨ (e.past ≠ [] ∧ e.future = [])

theorem groupOk_step {e : Editor} (h : GroupOk e) (op : Edit) : GroupOk (e.step op).1 := by
  have hed : ∀ k text, GroupOk (e.edit k text) := by
    intro k text
    unfold Editor.edit
    split
    · rename_i hg
      rcases h with h | h
      · rw [h] at hg; cases hg
      · exact Or.inr h
    · exact Or.inr ⟨by simp [Editor.snapshot], rfl⟩
  cases op with
  | insert o x => exact hed _ _
  | append x => exact hed _ _
  | delete a n => exact hed _ _
  | replace a n x => exact Or.inl rfl
  | undo => simp only [Editor.step]; split <;> first | exact h | exact Or.inl rfl
  | redo => simp only [Editor.step]; split <;> first | exact h | exact Or.inl rfl

theorem closes_step {e : Editor} (h : GroupOk e) (op : Edit) {k : Kind}
    (hc : Closes k (some op) (some (e.step op).2)) : (e.step op).1.group ≠ some k := by
  have hed : ∀ k' text, k' ≠ k → (e.edit k' text).group ≠ some k := by
    intro k' text hk
    unfold Editor.edit
    split
    · rename_i hg; simp only; rw [hg]; simpa using hk
    · simpa using hk
  cases op with
  | insert o x => exact hed _ _ (by simpa [Closes, groupKind] using hc)
  | append x => exact hed _ _ (by simpa [Closes, groupKind] using hc)
  | delete a n => exact hed _ _ (by simpa [Closes, groupKind] using hc)
  | replace a n x => simp [Editor.step]
  | undo =>
    simp only [Editor.step]
    split
    · rename_i hp
      rcases h with h | h
      · simp [h]
      · exact absurd hp h.1
    · simp
  | redo =>
    simp only [Editor.step, Closes] at hc ⊢
    split
    · rename_i hp; rw [hp] at hc; simp at hc
    · simp

theorem spec_run_append (e : Editor) (a b : List Edit) :
    e.run (a ++ b) = (((e.run a).1.run b).1, (e.run a).2 ++ ((e.run a).1.run b).2) := by
  induction a generalizing e with
  | nil => rfl
  | cons op ops ih => simp [Editor.run, ih]

theorem spec_group_run {e : Editor} {k : Kind} (grp : List Edit) (hg : ∀ op ∈ grp, groupKind op = some k)
    (ho : e.group = some k) : (e.run grp).1.past = e.past ∧ (e.run grp).1.group = some k := by
  induction grp generalizing e with
  | nil => exact ⟨rfl, ho⟩
  | cons op ops ih =>
    have hstep : (e.step op).1.past = e.past ∧ (e.step op).1.group = some k := by
      have h1 := hg op (by simp)
      cases op <;> simp [groupKind] at h1 <;> subst h1 <;> simp [Editor.step, Editor.edit, ho]
    obtain ⟨a, b⟩ := ih (e := (e.step op).1) (fun o ho => hg o (by simp [ho])) hstep.2
    exact ⟨by simp only [Editor.run]; rw [a, hstep.1], by simpa only [Editor.run] using b⟩

/-- C05: let a buffer holding `s0` go through the completed calls `pre` (after which it holds `s1`), and then
through one or more completed edits `grp` of the same kind `k` (after which it holds `s2`), no group of kind `k`
being open in between. Then undo succeeds and gives `s1` back, and redo then succeeds and gives `s2` back. -/
theorem C05_undo_redo {s0 : Bytes} (hs0 : s0 ≠ [])
    {pre grp : List (StaleHandle × Edit)} (hf : ∀ op ∈ pre ++ grp, op.1.follows = true)
    (hne : ∀ op ∈ pre ++ grp, ∀ x, op.2.text = some x → x ≠ [])
    {k : Kind} (hgrp : grp ≠ []) (hk : ∀ op ∈ grp, groupKind op.2 = some k)
    {t1 t2 : PieceTable} {b1 b2 : List Bool} (h1 : (PieceTable.withText s0).run pre = .ok (t1, b1))
    (h2 : t1.run grp = .ok (t2, b2)) (hclosed : Closes k (pre.getLast?.map (·.2)) b1.getLast?)
    {s1 s2 : Bytes} (hs1 : Shows t1 s1) (hs2 : Shows t2 s2) :
    ∃ t3, t2.undo = (t3, true) ∧ Shows t3 s1 ∧ ∃ t4, t3.redo = (t4, true) ∧ Shows t4 s2 := by
  obtain ⟨r0, c0, _⟩ := withText_facts hs0
  have habs0 : (PieceTable.withText s0).abs = Editor.start s0 := by
    unfold PieceTable.abs; rw [c0]; rfl
  obtain ⟨r1, a1⟩ := run_refines r0 (fun op hop => hf op (by simp [hop]))
    (fun op hop => edit_nonEmpty (hne op (by simp [hop]))) h1
  obtain ⟨r2, a2⟩ := run_refines r1 (fun op hop => hf op (by simp [hop]))
    (fun op hop => edit_nonEmpty (hne op (by simp [hop]))) h2
  rw [habs0] at a1
  have hs1' := (shows_iff r1.wf).1 hs1
  have hs2' := (shows_iff r2.wf).1 hs2
  subst hs1' hs2'
  -- the group is closed after `pre`
  have hg : t1.abs.group ≠ some k := by
    have e1 : t1.abs = ((Editor.start s0).run (pre.map (·.2))).1 := by rw [← a1]
    have e2 : b1 = ((Editor.start s0).run (pre.map (·.2))).2 := by rw [← a1]
    rw [e1]
    rcases List.eq_nil_or_concat pre with hp | ⟨pre', op, hp⟩
    · subst hp; simp [Editor.run, Editor.start]
    · subst hp
      rw [List.concat_eq_append] at *
      rw [List.map_append, spec_run_append] at e2 ⊢
      have hok : GroupOk ((Editor.start s0).run (pre'.map (·.2))).1 := by
        have : ∀ (l : List Edit) (e : Editor), GroupOk e → GroupOk (e.run l).1 := by
          intro l
          induction l with
          | nil => intro e h; exact h
          | cons op ops ih => intro e h; exact ih _ (groupOk_step h op)
        exact this _ _ (Or.inl rfl)
      have := closes_step (k := k) hok op.2
      simp only [List.map_cons, List.map_nil, Editor.run] at e2 ⊢
      apply this
      rw [e2] at hclosed
      simpa using hclosed
  -- the group takes one snapshot
  have hgroup : t2.abs.past = t1.content :: t1.abs.past ∧ t2.abs.text = t2.content := by
    refine ⟨?_, rfl⟩
    have e1 : t2.abs = (t1.abs.run (grp.map (·.2))).1 := by rw [← a2]
    rw [e1]
    cases grp with
    | nil => exact absurd rfl hgrp
    | cons op ops =>
      have hop := hk op (by simp)
      have hstep : (t1.abs.step op.2).1.past = t1.content :: t1.abs.past ∧
          (t1.abs.step op.2).1.group = some k := by
        have : t1.abs.text = t1.content := rfl
        cases hop2 : op.2 <;> rw [hop2] at hop <;> simp [groupKind] at hop <;> subst hop <;>
          simp [Editor.step, Editor.edit, hg, Editor.snapshot, this]
      have := spec_group_run (e := (t1.abs.step op.2).1) (k := k) (ops.map (·.2)) (by
        intro o ho
        simp only [List.mem_map] at ho
        obtain ⟨o', ho', rfl⟩ := ho
        exact hk o' (by simp [ho'])) hstep.2
      simp only [List.map_cons, Editor.run]
      rw [this.1, hstep.1]
  obtain ⟨r3, a3⟩ := undo_refines r2
  simp only [Editor.step, hgroup.1, Prod.mk.injEq] at a3
  obtain ⟨r4, a4⟩ := redo_refines r3
  rw [a3.1] at a4
  simp only [Editor.step, Prod.mk.injEq] at a4
  refine ⟨t2.undo.1, by rw [← a3.2], (shows_iff r3.wf).2 ?_, t2.undo.1.redo.1, by rw [← a4.2], (shows_iff r4.wf).2 ?_⟩
  · show t2.undo.1.abs.text = _
    rw [a3.1]
  · show t2.undo.1.redo.1.abs.text = _
    rw [a4.1]; rfl

example : Closes .deletion ([(H, Edit.insert 1 [88, 89])].getLast?.map (·.2)) [true].getLast? ∧
    T0.run [(H, .insert 1 [88, 89])] = .ok (T1, [true]) ∧
    (match T1.run [(H, .delete 3 2), (H, .delete 0 1)] with | .ok r => r.1.range 0 9 | .error e => .error e) =
      .ok (some [88, 89, 99, 100]) := by
  refine ⟨by simp [Closes, groupKind], by decide, by decide⟩

/-! ## C06 -/

/-- C06: as long as undo and redo only happen when they leave the line breaks of the text where they are (in
particular without undo and redo), the recorded line breaks are exactly the positions of the newline bytes of the
text. -/
theorem C06_line_index {t : PieceTable} (h : SteadyHistory t) {s : Bytes} (hs : Shows t s) :
    t.newlines = newlinePositions s := by
  rw [← (shows_iff (reachable_ready (steady_any h)).wf).1 hs]
  exact steady_newlines h

/-- Undo and redo, nothing else. -/
def BackAndForth (ops : List (StaleHandle × Edit)) : Prop := ∀ o ∈ ops, o.2 = .undo ∨ o.2 = .redo

/-- C06: and this is exact: when the recorded line breaks are right, they are still right after any number of undos and
redos exactly when these leave the text with its line breaks at the same positions; whatever the history. -/
theorem C06_undo_exactly {t t' : PieceTable} {s s' : Bytes} (h : AnyHistory t) (hs : Shows t s)
    (hn : t.newlines = newlinePositions s) {ops : List (StaleHandle × Edit)} {bs : List Bool} (ho : BackAndForth ops)
    (hf : ∀ o ∈ ops, o.1.follows = true) (hr : t.run ops = .ok (t', bs)) (hs' : Shows t' s') :
    AnyHistory t' ∧ (t'.newlines = newlinePositions s' ↔ newlinePositions s' = newlinePositions s) := by
  have key : ∀ (ops : List (StaleHandle × Edit)) (t : PieceTable) (bs : List Bool), AnyHistory t → BackAndForth ops →
      (∀ o ∈ ops, o.1.follows = true) → t.run ops = .ok (t', bs) → AnyHistory t' ∧ t'.newlines = t.newlines := by
    intro ops
    induction ops with
    | nil => intro t bs h _ _ hr; cases hr; exact ⟨h, rfl⟩
    | cons o ops ih =>
      intro t bs h ho hf hr
      obtain ⟨hd, e⟩ := o
      unfold PieceTable.run at hr
      have h1 := ho _ (List.mem_cons_self)
      have hf1 := hf _ (List.mem_cons_self)
      cases hst : t.step hd e with
      | error x => rw [hst] at hr; cases hr
      | ok r =>
        rw [hst] at hr
        simp only [except_bind_ok] at hr
        cases hrun : r.1.run ops with
        | error x => rw [hrun] at hr; cases hr
        | ok q =>
          rw [hrun] at hr
          simp only [except_bind_ok, except_pure, Except.ok.injEq, Prod.mk.injEq] at hr
          have hq : r.1.run ops = .ok (t', q.2) := by rw [hrun, ← hr.1]
          have hne : ∀ x, e.text = some x → x ≠ [] := by
            intro x hx
            simp only at h1
            rcases h1 with h1 | h1 <;> (subst h1; cases hx)
          have hany : AnyHistory r.1 := .edit (h := hd) (e := e) (b := r.2) h hf1 trivial hne hst
          obtain ⟨a1, a2⟩ := ih r.1 q.2 hany (fun o m => ho o (List.mem_cons_of_mem _ m))
            (fun o m => hf o (List.mem_cons_of_mem _ m)) hq
          refine ⟨a1, a2.trans ?_⟩
          rcases h1 with h1 | h1
          · simp only at h1; subst h1
            simp only [PieceTable.step, Except.ok.injEq] at hst
            rw [← hst, undo_newlines]
          · simp only at h1; subst h1
            simp only [PieceTable.step, Except.ok.injEq] at hst
            rw [← hst, redo_newlines]
  obtain ⟨a1, a2⟩ := key ops t bs h ho hf hr
  exact ⟨a1, by rw [a2, hn]; exact eq_comm⟩

/-- Going back to `"abcd"` and forth again: one undo shifts the line break, undo and redo together do not. -/
example : ∃ u v bs, T1.run [(H, .undo)] = .ok (u, bs) ∧ u.newlines ≠ newlinePositions u.content ∧
    T1.run [(H, .undo), (H, .redo)] = .ok (v, [true, true]) ∧ v.newlines = newlinePositions v.content :=
  ⟨_, _, _, rfl, by decide, rfl, by decide⟩

example : ForwardHistory T1 ∧ Shows T1 [97, 88, 89, 98, 10, 99, 100] ∧ newlinePositions [97, 88, 89, 98, 10, 99, 100] = [4] :=
  ⟨T1_forward, (shows_iff (reachable_ready T1_forward).wf).2 (by decide), by decide⟩

/-- C06 is violated by undo: after inserting a newline before `"ab"` and undoing, the buffer shows `"ab"` again but
still reports two lines. -/
theorem C06_undo_breaks_line_index :
    ∃ t s, AnyHistory t ∧ Shows t s ∧ t.newlines ≠ newlinePositions s ∧
      t.lineCount ≠ .ok (Spec.lines s).length := by
  have hr : AnyHistory ((PieceTable.withText [97, 98]).insert 0 [10]).undo.1 :=
    .edit (h := H) (e := .undo) (b := true)
      (.edit (h := H) (e := .insert 0 [10]) (b := true) (.withText (s := [97, 98]) (by simp) trivial) rfl trivial
        (by simp [Edit.text]) rfl) rfl trivial (by simp [Edit.text]) (by decide)
  exact ⟨_, [97, 98], hr, (shows_iff (reachable_ready hr).wf).2 (by decide), by decide, by decide⟩

/-! ## C08 -/

/-- C08: for a non-empty buffer whose undos and redos left the line breaks in place, the line count is the number of lines of its text,
line `n` read alone is the `n`-th of them, and every line number outside `1..count` is refused. -/
theorem C08_lines {t : PieceTable} (h : SteadyHistory t) {s : Bytes} (hs : Shows t s) (hne : s ≠ []) :
    t.lineCount = .ok (Spec.lines s).length ∧
    (∀ n, 1 ≤ n → t.lineBytes n = .ok (Spec.lines s)[n - 1]?) ∧ t.lineBytes 0 = .ok none := by
  have hw := (reachable_ready (steady_any h)).wf
  have hc := (shows_iff hw).1 hs
  subst hc
  refine ⟨lineCount_eq hw (steady_newlines h) hne, ?_, ?_⟩
  · intro n hn
    rw [lineBytes_eq hw (steady_newlines h) hne, if_neg (by omega)]
  · rw [lineBytes_eq hw (steady_newlines h) hne, if_pos rfl]

/-- C08: the empty buffer counts one line. -/
theorem C08_empty {t : PieceTable} (h : SteadyHistory t) (hs : Shows t []) : t.lineCount = .ok 1 := by
  have hw := (reachable_ready (steady_any h)).wf
  exact lineCount_empty hw (steady_newlines h) ((shows_iff hw).1 hs)

/-- C08: all the lines at once, for texts edited between characters and without carriage returns. -/
theorem C08_all_lines {t : PieceTable} (h : CleanHistory t) {s : Bytes} (hs : Shows t s) (hcr : 13 ∉ s) :
    t.lines = .ok (Spec.lines s) := by
  obtain ⟨hr, ht⟩ := clean_ok h
  have hc := (shows_iff hr.wf).1 hs
  subst hc
  unfold PieceTable.lines
  rw [text_eq hr.wf ht.pieces]
  simp only [except_bind_ok, except_pure]
  rw [strLines_eq hcr]

example : T1.lineCount = .ok 2 ∧ T1.lineBytes 2 = .ok (some [99, 100]) := by
  have hs : Shows T1 [97, 88, 89, 98, 10, 99, 100] := (shows_iff (reachable_ready T1_forward).wf).2 (by decide)
  obtain ⟨h1, h2, _⟩ := C08_lines (forward_steady T1_forward) hs (by simp)
  exact ⟨h1, h2 2 (by omega)⟩

/-! ## C09 -/

/-- C09: as long as every edit falls between characters and brings well-formed text, the buffer as a string is byte
for byte the logical text, which is well formed (undo and redo included). -/
theorem C09_text {t : PieceTable} (h : CleanHistory t) {s : Bytes} (hs : Shows t s) :
    t.text = .ok s ∧ IsText s := by
  obtain ⟨hr, ht⟩ := clean_ok h
  have hc := (shows_iff hr.wf).1 hs
  subst hc
  exact ⟨text_eq hr.wf ht.pieces, ht.isText⟩

/-- C09 for ASCII texts, whatever the edits and whole-text updates. -/
theorem C09_ascii {t : PieceTable} (h : AsciiHistory t) {s : Bytes} (hs : Shows t s) :
    t.text = .ok s ∧ Ascii s := by
  have hr := reachable_ready h
  have hc := (shows_iff hr.wf).1 hs
  subst hc
  have hb := ascii_bufs h
  exact ⟨text_eq hr.wf (ascii_TextOk hb).pieces, ascii_content hb⟩

theorem isText_eacute : IsText [195, 169] := ⟨['é'], by decide⟩

/-- `"é"`, with an `a` put in front: a clean history over a multi-byte text -/
theorem clean_ex : CleanHistory ((PieceTable.withText [195, 169]).insert 0 [97]) := by
  refine .edit (s := [195, 169]) (h := H) (e := .insert 0 [97]) (b := true) (.withText (by simp) isText_eacute)
    ?_ rfl ⟨boundary_zero isText_eacute, isText_ascii (by intro b; simp; rintro rfl; decide), by simp⟩ rfl
  exact (shows_iff (withText_facts (by simp)).1.wf).2 (by decide)

example : ((PieceTable.withText [195, 169]).insert 0 [97]).text = .ok [97, 195, 169] :=
  (C09_text clean_ex ((shows_iff (clean_ok clean_ex).1.wf).2 (by decide))).1

/-- C09: an insertion inside a multi-byte character corrupts the string: the two halves of `"é"` become replacement
characters although the bytes are still there. -/
theorem C09_split_corrupts :
    ∃ t s, AnyHistory t ∧ Shows t s ∧ s = [195, 97, 169] ∧ t.text ≠ .ok s := by
  have hr : AnyHistory ((PieceTable.withText [195, 169]).insert 1 [97]) :=
    .edit (h := H) (e := .insert 1 [97]) (b := true) (.withText (by simp) trivial) rfl trivial
      (by simp [Edit.text]) rfl
  exact ⟨_, _, hr, (shows_iff (reachable_ready hr).wf).2 (by decide), rfl, by decide⟩

/-! ## C13 -/

/-- C13: a completed whole-text update, whatever number of elementary edits it took, is undone by a single undo, and
redone by a single redo. -/
theorem C13_update_one_step {t t' : PieceTable} (h : AnyHistory t) {s : Bytes} (hs : Shows t s)
    {hd : Nat → StaleHandle} (hf : ∀ i, (hd i).follows = true) {x : Bytes} (hu : t.applyDiff hd x = .ok t')
    {s' : Bytes} (hs' : Shows t' s') :
    ∃ u, t'.undo = (u, true) ∧ Shows u s ∧ ∃ v, u.redo = (v, true) ∧ Shows v s' := by
  have hw := reachable_ready h
  have hc := (shows_iff hw.wf).1 hs
  subst hc
  obtain ⟨_, ds, _, _, h1, h2, _⟩ := applyDiff_eq hf hw hu
  have hc' := (shows_iff h1.wf).1 hs'
  subst hc'
  obtain ⟨g1, g2⟩ := undo_refines h1
  have hpast : t'.abs.past = t.content :: t.abs.past := by rw [h2]; rfl
  simp only [Editor.step, hpast, Prod.mk.injEq] at g2
  obtain ⟨k1, k2⟩ := redo_refines g1
  rw [g2.1] at k2
  simp only [Editor.step, Prod.mk.injEq] at k2
  refine ⟨t'.undo.1, by rw [← g2.2], (shows_iff g1.wf).2 ?_, t'.undo.1.redo.1, by rw [← k2.2], (shows_iff k1.wf).2 ?_⟩
  · show t'.undo.1.abs.text = _
    rw [g2.1]
  · show t'.undo.1.redo.1.abs.text = _
    rw [k2.1]; rfl

/-- an update that takes several elementary edits, from `"ab\ncd"` to `"xbyz\n"`, completes -/
example : ∃ t', T0.applyDiff (fun _ => H) [120, 98, 121, 122, 10] = .ok t' := by
  have h : (match T0.applyDiff (fun _ => H) [120, 98, 121, 122, 10] with | .ok _ => true | .error _ => false) = true := by
    decide
  cases hr : T0.applyDiff (fun _ => H) [120, 98, 121, 122, 10] with
  | error e => rw [hr] at h; cases h
  | ok r => exact ⟨r, rfl⟩

/-! ## C16 -/

/-- C16: the length reported for an existing line is the number of its bytes. -/
theorem C16_line_length {t : PieceTable} (h : SteadyHistory t) {s : Bytes} (hs : Shows t s) {n : Nat} (h1 : 1 ≤ n)
    {l : Bytes} (hl : (Spec.lines s)[n - 1]? = some l) : t.lineLength n = .ok l.length := by
  have hw := (reachable_ready (steady_any h)).wf
  have hc := (shows_iff hw).1 hs
  subst hc
  exact lineLength_eq hw (steady_newlines h) h1 hl

/-- C16: the longest line reported is the first one of maximal length (number and length are 0 when all lines are
empty). -/
theorem C16_longest_line {t : PieceTable} (h : SteadyHistory t) {s : Bytes} (hs : Shows t s) (hne : s ≠ []) :
    ∃ n m, t.longestLine = .ok (n, m) ∧ (∀ l ∈ Spec.lines s, l.length ≤ m) ∧
      ((n = 0 ∧ m = 0) ∨
        (1 ≤ n ∧ ∃ l, (Spec.lines s)[n - 1]? = some l ∧ l.length = m ∧
          ∀ i l', i < n - 1 → (Spec.lines s)[i]? = some l' → l'.length < m)) := by
  have hw := (reachable_ready (steady_any h)).wf
  have hc := (shows_iff hw).1 hs
  subst hc
  obtain ⟨r, e, h1, h2⟩ := longestLine_eq hw (steady_newlines h) hne
  refine ⟨r.1, r.2, e, ?_, ?_⟩
  · intro l hl
    obtain ⟨i, hi, rfl⟩ := List.getElem_of_mem hl
    exact h1 i _ hi (List.getElem?_eq_getElem hi)
  · rcases h2 with h2 | ⟨h3, h4, h5, h6, h7⟩
    · left; rw [h2]; exact ⟨rfl, rfl⟩
    · right
      refine ⟨h3, ?_⟩
      cases hl : (Spec.lines t.content)[r.1 - 1]? with
      | none => rw [hl] at h6; cases h6
      | some l =>
        rw [hl] at h6
        simp only [Option.map_some, Option.some.injEq] at h6
        exact ⟨l, rfl, h6, h7⟩

example : T1.lineLength 2 = .ok 2 ∧ T1.longestLine = .ok (1, 4) := by
  have hs : Shows T1 [97, 88, 89, 98, 10, 99, 100] := (shows_iff (reachable_ready T1_forward).wf).2 (by decide)
  exact ⟨C16_line_length (forward_steady T1_forward) hs (by omega) (l := [99, 100]) (by decide), by decide⟩

end Ced.Props

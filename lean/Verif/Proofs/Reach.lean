import Verif.Spec.Reach
import Verif.Proofs.Diff
import Verif.Proofs.LineLen

/-! Auxiliary lemmas about reachable buffers. -/

namespace Ced
open Spec

theorem slice_full (s : Bytes) : slice s 0 s.length = s := by simp [slice]

theorem edit_nonEmpty {e : Edit} (h : ∀ x, e.text = some x → x ≠ []) : e.NonEmpty := by
  cases e <;> simp_all [Edit.text, Edit.NonEmpty]

namespace PieceTable

theorem shows_content {t : PieceTable} (hw : t.WF) : Shows t t.content :=
  ⟨hw.len_eq, fun _ _ hab => range_eq hw hab⟩

theorem shows_unique {t : PieceTable} {s s' : Bytes} (h : Shows t s) (h' : Shows t s') : s = s' := by
  have hl : s.length = s'.length := by rw [← h.1, h'.1]
  by_cases h0 : s.length = 0
  · have h1 : s = [] := List.length_eq_zero_iff.1 h0
    have h2 : s' = [] := List.length_eq_zero_iff.1 (by omega)
    rw [h1, h2]
  · have e1 := h.2 0 s.length (by omega)
    have e2 := h'.2 0 s.length (by omega)
    rw [e1, if_pos (by omega), if_pos (by omega), slice_full, hl, slice_full] at e2
    simpa using e2

theorem shows_iff {t : PieceTable} (hw : t.WF) {s : Bytes} : Shows t s ↔ t.content = s :=
  ⟨fun h => shows_unique (shows_content hw) h, fun h => h ▸ shows_content hw⟩

theorem undo_refines {t : PieceTable} (hr : t.Ready) :
    t.undo.1.Ready ∧ (t.undo.1.abs, t.undo.2) = t.abs.step .undo := by
  have hs : t.step ⟨true, 0⟩ .undo = .ok (t.undo.1, t.undo.2) := rfl
  exact step_refines (e := .undo) (t' := t.undo.1) (b := t.undo.2) rfl hr trivial hs

theorem redo_refines {t : PieceTable} (hr : t.Ready) :
    t.redo.1.Ready ∧ (t.redo.1.abs, t.redo.2) = t.abs.step .redo := by
  have hs : t.step ⟨true, 0⟩ .redo = .ok (t.redo.1, t.redo.2) := rfl
  exact step_refines (e := .redo) (t' := t.redo.1) (b := t.redo.2) rfl hr trivial hs

theorem step_newlines {h : StaleHandle} (hf : h.follows = true) {t t' : PieceTable} (hr : t.Ready) {e : Edit}
    (hne : e.NonEmpty) {b : Bool} (hs : t.step h e = .ok (t', b)) (hfw : e ≠ .undo ∧ e ≠ .redo)
    (hn : t.NewlinesOk) : t'.NewlinesOk := by
  cases e with
  | insert o x =>
    simp only [step, Except.ok.injEq, Prod.mk.injEq] at hs
    obtain ⟨rfl, rfl⟩ := hs
    exact (insert_eq hr.wf hne o).1.newlines hn
  | append x =>
    simp only [step, Except.ok.injEq, Prod.mk.injEq] at hs
    obtain ⟨rfl, rfl⟩ := hs
    exact (append_eq hr.wf hne).1.newlines hn
  | delete a n =>
    simp only [step] at hs
    rcases delete_eq hf hr.wf a n with ⟨u, e1, heff, _⟩ | ⟨e1, _⟩ | ⟨e1, _⟩
    · rw [e1] at hs
      simp only [except_bind_ok, except_pure, Except.ok.injEq, Prod.mk.injEq] at hs
      obtain ⟨rfl, rfl⟩ := hs
      exact heff.newlines hn
    · rw [e1] at hs; cases hs
    · rw [e1] at hs; cases hs
  | replace a n x =>
    simp only [step] at hs
    cases hd : t.replace h a n x with
    | error e => rw [hd] at hs; cases hs
    | ok u =>
      rw [hd] at hs
      simp only [except_bind_ok, except_pure, Except.ok.injEq, Prod.mk.injEq] at hs
      obtain ⟨rfl, rfl⟩ := hs
      exact (replace_eq hf hr hne hd).2.2 hn
  | undo => exact absurd rfl hfw.1
  | redo => exact absurd rfl hfw.2

theorem reachable_ready {oe : Edit → Prop} {ot : Bytes → Prop} {t : PieceTable} (h : Reachable oe ot t) :
    t.Ready := by
  induction h with
  | new => exact ready_new
  | withText hs _ => exact (withText_facts hs).1
  | edit _ hf _ ne hs ih => exact (step_refines hf ih (edit_nonEmpty ne) hs).1
  | update _ hf _ hd ih =>
    obtain ⟨_, _, _, _, h, _⟩ := applyDiff_eq hf ih hd
    exact h

theorem forward_newlines {t : PieceTable} (h : ForwardHistory t) : t.NewlinesOk := by
  unfold ForwardHistory at h
  induction h with
  | new => exact new_facts.2
  | withText hs _ => exact (withText_facts hs).2.2
  | edit r hf ok ne hs ih =>
    exact step_newlines hf (reachable_ready r) (edit_nonEmpty ne) hs ok ih
  | update r hf _ hd ih =>
    obtain ⟨_, _, _, _, _, _, hn⟩ := applyDiff_eq hf (reachable_ready r) hd
    exact hn ih

theorem Reachable.mono {oe oe' : Edit → Prop} {ot ot' : Bytes → Prop} (h1 : ∀ e, oe e → oe' e)
    (h2 : ∀ x, ot x → ot' x) {t : PieceTable} (h : Reachable oe ot t) : Reachable oe' ot' t := by
  induction h with
  | new => exact .new
  | withText hs ok => exact .withText hs (h2 _ ok)
  | edit _ hf ok ne hs ih => exact .edit ih hf (h1 _ ok) ne hs
  | update _ hf ok hd ih => exact .update ih hf (h2 _ ok) hd

theorem forward_any {t : PieceTable} (h : ForwardHistory t) : AnyHistory t :=
  Reachable.mono (fun _ _ => trivial) (fun _ h => h) h

theorem ascii_any {t : PieceTable} (h : AsciiHistory t) : AnyHistory t :=
  Reachable.mono (fun _ _ => trivial) (fun _ _ => trivial) h

theorem undo_newlines (t : PieceTable) : t.undo.1.newlines = t.newlines := by
  unfold undo; split <;> rfl

theorem redo_newlines (t : PieceTable) : t.redo.1.newlines = t.newlines := by
  unfold redo; split <;> rfl

theorem steady_any {t : PieceTable} (h : SteadyHistory t) : AnyHistory t := by
  induction h with
  | new => exact .new
  | withText hs => exact .withText hs trivial
  | edit _ hf ne hs _ ih => exact .edit ih hf trivial ne hs
  | update _ hf hd ih => exact .update ih hf trivial hd

theorem steady_newlines {t : PieceTable} (h : SteadyHistory t) : t.NewlinesOk := by
  induction h with
  | new => exact new_facts.2
  | withText hs => exact (withText_facts hs).2.2
  | @edit t t' h e b r hf ne hs st ih =>
    have hr := reachable_ready (steady_any r)
    have hr' := reachable_ready (steady_any (.edit r hf ne hs st))
    by_cases hu : e = .undo ∨ e = .redo
    · have hk := st hu _ _ (shows_content hr.wf) (shows_content hr'.wf)
      have hn : t'.newlines = t.newlines := by
        rcases hu with rfl | rfl
        · simp only [step, Except.ok.injEq] at hs
          rw [← undo_newlines t, hs]
        · simp only [step, Except.ok.injEq] at hs
          rw [← redo_newlines t, hs]
      unfold NewlinesOk at *
      rw [hn, ih, hk]
    · exact step_newlines hf hr (edit_nonEmpty ne) hs ⟨fun h => hu (.inl h), fun h => hu (.inr h)⟩ ih
  | update r hf hd ih =>
    obtain ⟨_, _, _, _, _, _, hn⟩ := applyDiff_eq hf (reachable_ready (steady_any r)) hd
    exact hn ih

theorem forward_steady {t : PieceTable} (h : ForwardHistory t) : SteadyHistory t := by
  unfold ForwardHistory at h
  induction h with
  | new => exact .new
  | withText hs _ => exact .withText hs
  | edit _ hf ok ne hs ih => exact .edit ih hf ne hs (by rintro (h | h) <;> simp_all)
  | update _ hf _ hd ih => exact .update ih hf hd

/-! ## Clean histories -/

theorem replace_TextOk {h : StaleHandle} (hf : h.follows = true) {t t' : PieceTable} (hr : t.Ready) (ht : t.TextOk)
    {a n : Nat} {x : Bytes} (hx : x ≠ []) (hxt : IsText x) (ha : IsBoundary t.content a)
    (hn : IsBoundary t.content (a + n)) (hd : t.replace h a n x = .ok t') : t'.TextOk := by
  unfold replace at hd
  have hwsb : t.startBulk.WF := action_WF hr.wf .bulk
  have hcsb : t.startBulk.content = t.content := action_content hr.wf .bulk
  have htsb : t.startBulk.TextOk := action_TextOk hr.wf ht .bulk
  simp only at hd
  cases hdel : t.startBulk.delete h a n with
  | error e => rw [hdel] at hd; cases hd
  | ok u =>
    rw [hdel] at hd
    simp only [except_bind_ok, except_pure] at hd
    cases hd
    have hu := delete_TextOk hf hwsb htsb (by rwa [hcsb]) (by rwa [hcsb]) hdel
    rcases delete_eq hf hwsb a n with ⟨u', e1, heff, _⟩ | ⟨e1, _⟩ | ⟨e1, _⟩
    · rw [hdel] at e1; cases e1
      have hb : IsBoundary u.content a := by
        rw [heff.content, hcsb]
        rcases Nat.le_total a t.content.length with h0 | h0
        · exact boundary_cut_before ha hn ha h0 (Nat.le_refl _)
        · have : cut t.content a n = t.content := by
            unfold cut; rw [List.take_of_length_le h0, List.drop_eq_nil_of_le (by omega)]; simp
          rw [this]; exact ha
      have := insert_TextOk heff.wf hu hx hxt hb
      exact ⟨this.pieces, this.undos, this.redos⟩
    · rw [hdel] at e1; cases e1
    · rw [hdel] at e1; cases e1

theorem isBoundary_end {s : Bytes} (h : IsText s) {k : Nat} (hk : s.length ≤ k) : IsBoundary s k :=
  ⟨by rwa [List.take_of_length_le hk], by rw [List.drop_eq_nil_of_le hk]; exact isText_nil⟩

theorem step_TextOk {h : StaleHandle} (hf : h.follows = true) {t t' : PieceTable} (hr : t.Ready) (ht : t.TextOk)
    {e : Edit} (hc : e.Clean t.content) {b : Bool} (hs : t.step h e = .ok (t', b)) : t'.TextOk := by
  cases e with
  | insert o x =>
    simp only [step, Except.ok.injEq, Prod.mk.injEq] at hs
    obtain ⟨rfl, rfl⟩ := hs
    exact insert_TextOk hr.wf ht hc.2.2 hc.2.1 hc.1
  | append x =>
    simp only [step, Except.ok.injEq, Prod.mk.injEq] at hs
    obtain ⟨rfl, rfl⟩ := hs
    rw [append_eq_insert hr.wf]
    exact insert_TextOk hr.wf ht hc.2 hc.1 (isBoundary_end ht.isText (Nat.le_refl _))
  | delete a n =>
    simp only [step] at hs
    cases hd : t.delete h a n with
    | error e => rw [hd] at hs; cases hs
    | ok u =>
      rw [hd] at hs
      simp only [except_bind_ok, except_pure, Except.ok.injEq, Prod.mk.injEq] at hs
      obtain ⟨rfl, rfl⟩ := hs
      exact delete_TextOk hf hr.wf ht hc.1 hc.2 hd
  | replace a n x =>
    simp only [step] at hs
    cases hd : t.replace h a n x with
    | error e => rw [hd] at hs; cases hs
    | ok u =>
      rw [hd] at hs
      simp only [except_bind_ok, except_pure, Except.ok.injEq, Prod.mk.injEq] at hs
      obtain ⟨rfl, rfl⟩ := hs
      exact replace_TextOk hf hr ht hc.2.2.2 hc.2.2.1 hc.1 hc.2.1 hd
  | undo =>
    simp only [step, Except.ok.injEq] at hs
    unfold undo at hs
    split at hs
    · rename_i ps rest hu
      cases hs
      refine ⟨ht.undos ps (by simp [hu]), fun q hq => ht.undos q (by simp [hu, hq]), ?_⟩
      intro q hq
      rcases List.mem_cons.1 hq with rfl | hq
      · exact ht.pieces
      · exact ht.redos q hq
    · cases hs; exact ht
  | redo =>
    simp only [step, Except.ok.injEq] at hs
    unfold redo at hs
    split at hs
    · rename_i ps rest hu
      cases hs
      refine ⟨ht.redos ps (by simp [hu]), ?_, fun q hq => ht.redos q (by simp [hu, hq])⟩
      intro q hq
      rcases List.mem_cons.1 hq with rfl | hq
      · exact ht.pieces
      · exact ht.undos q hq
    · cases hs; exact ht

theorem clean_nonEmpty {s : Bytes} {e : Edit} (h : e.Clean s) : e.NonEmpty := by
  cases e <;> simp_all [Edit.Clean, Edit.NonEmpty]

theorem clean_ok {t : PieceTable} (h : CleanHistory t) : t.Ready ∧ t.TextOk := by
  induction h with
  | new => exact ⟨ready_new, ⟨⟨isText_nil, by simp [PieceTable.new]⟩, by simp [PieceTable.new],
      by simp [PieceTable.new]⟩⟩
  | @withText s hs ok =>
    obtain ⟨h1, h2, _⟩ := withText_facts hs
    refine ⟨h1, ⟨⟨?_, ?_⟩, by simp [withText], by simp [withText]⟩⟩
    · show IsText (withText s).content
      rw [h2]; exact ok
    · intro p hp
      show IsBoundary (withText s).content p.offset
      rw [h2]
      simp only [withText, Pieces.insert, List.mem_singleton] at hp
      subst hp
      exact boundary_zero ok
  | edit r sh hf ok hs ih =>
    rw [← (shows_iff ih.1.wf).1 sh] at ok
    exact ⟨(step_refines hf ih.1 (clean_nonEmpty ok) hs).1, step_TextOk hf ih.1 ih.2 ok hs⟩

/-! ## ASCII histories -/

theorem isText_ascii {s : Bytes} (h : Ascii s) : IsText s := by
  induction s with
  | nil => exact isText_nil
  | cons b bs ih =>
    have hb : b < 128 := h b (by simp)
    have : IsText [b] := by
      refine ⟨[Char.ofNat b.toNat], ?_⟩
      have hb' : b.toNat < 128 := by simpa [UInt8.lt_iff_toNat_lt] using hb
      have hv : (Char.ofNat b.toNat).val.toNat = b.toNat := by
        have hval : b.toNat.isValidChar := Or.inl (by omega)
        simp [Char.ofNat, hval, Char.ofNatAux]
      simp only [encode, List.flatMap_cons, List.flatMap_nil, List.append_nil]
      unfold String.utf8EncodeChar
      simp only [hv]
      rw [if_pos (by omega)]
      simp
    exact isText_append this (ih (fun x hx => h x (by simp [hx])))

theorem ascii_boundary {s : Bytes} (h : Ascii s) (k : Nat) : IsBoundary s k :=
  ⟨isText_ascii fun b hb => h b (List.mem_of_mem_take hb), isText_ascii fun b hb => h b (List.mem_of_mem_drop hb)⟩

/-- Both buffers are ASCII. -/
def AsciiBufs (t : PieceTable) : Prop := Ascii t.original ∧ Ascii t.added

theorem contentOf_ascii {o a : Bytes} (ho : Ascii o) (ha : Ascii a) (ps : Pieces) : Ascii (contentOf o a ps) := by
  intro b hb
  obtain ⟨p, _, hb⟩ := List.mem_flatMap.1 hb
  unfold pieceBytes at hb
  have := List.mem_of_mem_drop (List.mem_of_mem_take hb)
  unfold bufOf at this
  split at this
  · exact ho b this
  · exact ha b this

theorem ascii_content {t : PieceTable} (h : t.AsciiBufs) : Ascii t.content := contentOf_ascii h.1 h.2 _

theorem ascii_TextOk {t : PieceTable} (h : t.AsciiBufs) : t.TextOk := by
  have : ∀ ps, t.BoundaryPieces ps := fun ps =>
    ⟨isText_ascii (contentOf_ascii h.1 h.2 ps), fun p _ => ascii_boundary (contentOf_ascii h.1 h.2 ps) _⟩
  exact ⟨this _, fun ps _ => this ps, fun ps _ => this ps⟩

theorem ascii_append {a b : Bytes} (ha : Ascii a) (hb : Ascii b) : Ascii (a ++ b) := by
  intro x hx; rcases List.mem_append.1 hx with h | h
  · exact ha x h
  · exact hb x h

theorem insert_bufs {t : PieceTable} (hw : t.WF) {x : Bytes} (hx : x ≠ []) (hxa : Ascii x) (h : t.AsciiBufs) (k : Nat) :
    (t.insert k x).AsciiBufs := by
  obtain ⟨_, _, _, _, ho, ha⟩ := insert_eq hw hx k
  unfold AsciiBufs; rw [ho, ha]; exact ⟨h.1, ascii_append h.2 hxa⟩

theorem action_bufs {t : PieceTable} (h : t.AsciiBufs) (a : Action) : (t.action a).AsciiBufs := by
  unfold AsciiBufs; rw [action_original, action_added]; exact h

theorem delete_bufs {hd : StaleHandle} (hf : hd.follows = true) {t t' : PieceTable} (hw : t.WF) (h : t.AsciiBufs)
    {a n : Nat} (hs : t.delete hd a n = .ok t') : t'.AsciiBufs ∧ t'.WF := by
  rcases delete_eq hf hw a n with ⟨u, e1, heff, _, _, _, ho, ha⟩ | ⟨e1, _⟩ | ⟨e1, _⟩
  · rw [hs] at e1; cases e1
    refine ⟨?_, heff.wf⟩
    unfold AsciiBufs; rw [ho, ha]; exact h
  · rw [hs] at e1; cases e1
  · rw [hs] at e1; cases e1

theorem step_bufs {h : StaleHandle} (hf : h.follows = true) {t t' : PieceTable} (hr : t.Ready) (hb : t.AsciiBufs)
    {e : Edit} (hne : e.NonEmpty) (hc : ∀ x, e.text = some x → Ascii x) {b : Bool}
    (hs : t.step h e = .ok (t', b)) : t'.AsciiBufs := by
  cases e with
  | insert o x =>
    simp only [step, Except.ok.injEq, Prod.mk.injEq] at hs
    obtain ⟨rfl, rfl⟩ := hs
    exact insert_bufs hr.wf hne (hc x rfl) hb o
  | append x =>
    simp only [step, Except.ok.injEq, Prod.mk.injEq] at hs
    obtain ⟨rfl, rfl⟩ := hs
    rw [append_eq_insert hr.wf]
    exact insert_bufs hr.wf hne (hc x rfl) hb _
  | delete a n =>
    simp only [step] at hs
    cases hd : t.delete h a n with
    | error e => rw [hd] at hs; cases hs
    | ok u =>
      rw [hd] at hs
      simp only [except_bind_ok, except_pure, Except.ok.injEq, Prod.mk.injEq] at hs
      obtain ⟨rfl, rfl⟩ := hs
      exact (delete_bufs hf hr.wf hb hd).1
  | replace a n x =>
    simp only [step, replace] at hs
    cases hd : t.startBulk.delete h a n with
    | error e => rw [hd] at hs; cases hs
    | ok u =>
      rw [hd] at hs
      simp only [except_bind_ok, except_pure, Except.ok.injEq, Prod.mk.injEq] at hs
      obtain ⟨rfl, rfl⟩ := hs
      obtain ⟨h1, h2⟩ := delete_bufs hf (action_WF hr.wf .bulk) (action_bufs hb .bulk) hd
      exact insert_bufs h2 hne (hc x rfl) h1 a
  | undo =>
    simp only [step, Except.ok.injEq] at hs
    unfold undo at hs
    split at hs <;> (cases hs; exact hb)
  | redo =>
    simp only [step, Except.ok.injEq] at hs
    unfold redo at hs
    split at hs <;> (cases hs; exact hb)

theorem fold_bufs {hs : Nat → StaleHandle} (hf : ∀ i, (hs i).follows = true) {text : Bytes} (ht : Ascii text)
    (ds : List Diff) (hpos : ∀ d ∈ ds, 0 < DiffM.size d) (k : Nat) (t : PieceTable) (lo ro : Nat)
    (hw : t.WF) (hb : t.AsciiBufs) {st : PieceTable × Nat × Nat}
    (h : (ds.zipIdx k).foldlM (fun st d => applyOne (hs d.2) text st d.1) (t, lo, ro) = .ok st) :
    st.1.AsciiBufs := by
  induction ds generalizing k t lo ro with
  | nil =>
    simp only [List.zipIdx_nil, List.foldlM_nil, except_pure, Except.ok.injEq] at h
    subst h; exact hb
  | cons d ds ih =>
    rw [List.zipIdx_cons, List.foldlM_cons] at h
    have hpos' : ∀ d ∈ ds, 0 < DiffM.size d := fun d hd => hpos d (by simp [hd])
    cases d with
    | left n =>
      simp only [applyOne] at h
      cases hd : t.delete (hs k) lo n with
      | error e => rw [hd] at h; cases h
      | ok u =>
        rw [hd] at h
        obtain ⟨h1, h2⟩ := delete_bufs (hf k) hw hb hd
        exact ih hpos' _ _ _ _ h2 h1 h
    | right n =>
      simp only [applyOne] at h
      have hn : 0 < n := hpos (.right n) (by simp)
      unfold strSliceR at h
      split at h
      · rename_i hsl
        simp only [except_bind_ok, except_pure] at h
        obtain ⟨_, hle, _⟩ := hsl
        have hxl : ((text.drop ro).take (ro + n - ro)).length = n := by simp; omega
        have hxa : Ascii ((text.drop ro).take (ro + n - ro)) := fun b hb =>
          ht b (List.mem_of_mem_drop (List.mem_of_mem_take hb))
        generalize (text.drop ro).take (ro + n - ro) = x at h hxl hxa
        have hx : x ≠ [] := by intro h0; rw [h0] at hxl; simp at hxl; omega
        exact ih hpos' _ _ _ _ (insert_eq hw hx lo).1.wf (insert_bufs hw hx hxa hb lo) h
      · cases h
    | both n =>
      simp only [applyOne, except_bind_ok] at h
      exact ih hpos' _ _ _ _ hw hb h

theorem applyDiff_bufs {hs : Nat → StaleHandle} (hf : ∀ i, (hs i).follows = true) {t t' : PieceTable}
    (hr : t.Ready) (hb : t.AsciiBufs) {text : Bytes} (ht : Ascii text) (h : t.applyDiff hs text = .ok t') :
    t'.AsciiBufs := by
  unfold applyDiff at h
  cases h1 : t.text with
  | error e => rw [h1] at h; cases h
  | ok s =>
    rw [h1] at h
    simp only [except_bind_ok] at h
    cases h2 : DiffM.diff s text with
    | error e => rw [h2] at h; cases h
    | ok ds =>
      rw [h2] at h
      simp only [except_bind_ok] at h
      cases h3 : (ds.zipIdx).foldlM (fun st d => applyOne (hs d.2) text st d.1) (t.startBulk, 0, 0) with
      | error e => rw [h3] at h; cases h
      | ok st =>
        rw [h3] at h
        simp only [except_bind_ok, except_pure, Except.ok.injEq] at h
        subst h
        exact fold_bufs hf ht ds (DiffM.diff_pos h2) 0 _ 0 0 (action_WF hr.wf .bulk) (action_bufs hb .bulk) h3

theorem ascii_bufs {t : PieceTable} (h : AsciiHistory t) : t.AsciiBufs := by
  unfold AsciiHistory at h
  induction h with
  | new => exact ⟨by simp [Ascii, PieceTable.new], by simp [Ascii, PieceTable.new]⟩
  | withText hs ok => exact ⟨by simpa [withText] using ok, by simp [Ascii, withText]⟩
  | edit r hf ok ne hs ih => exact step_bufs hf (reachable_ready r) ih (edit_nonEmpty ne) ok hs
  | update r hf ok hd ih => exact applyDiff_bufs hf (reachable_ready r) ih ok hd

end PieceTable
end Ced

import Verif.Proofs.Newlines

/-! Auxiliary lemmas: effect of insert, append and delete on pieces and content. -/

namespace Ced
open Spec

namespace PieceTable

/-- Representation invariant: current and remembered pieces are contiguous from 0, non-empty and
inside the buffers. -/
structure WF (t : PieceTable) : Prop where
  pieces : Chain t.original t.added 0 t.pieces
  undos : ∀ ps ∈ t.undos, Chain t.original t.added 0 ps
  redos : ∀ ps ∈ t.redos, Chain t.original t.added 0 ps

/-- The recorded newlines are those of the content. -/
def NewlinesOk (t : PieceTable) : Prop := t.newlines = newlinePositions t.content

theorem WF.len_eq {t : PieceTable} (h : t.WF) : t.len = t.content.length := by
  rw [len, Pieces.len_eq_total, content, chain_content_length h.pieces]

theorem len_total (t : PieceTable) : t.len = total t.pieces := Pieces.len_eq_total _

theorem isEmpty_iff {t : PieceTable} (h : t.WF) : t.isEmpty = true ↔ t.content = [] := by
  have hl := chain_content_length h.pieces
  unfold isEmpty content
  cases hp : t.pieces with
  | nil => simp
  | cons p ps =>
    rw [hp] at hl
    have := h.pieces
    rw [hp] at this
    obtain ⟨_, h2, _, _⟩ := this
    simp only [List.isEmpty_cons, Bool.false_eq_true, false_iff]
    intro hc
    rw [hc] at hl
    simp at hl
    omega

@[simp] theorem action_original (t : PieceTable) (k : Action) : (t.action k).original = t.original := by
  unfold action commit; split
  · rfl
  · split <;> rfl
@[simp] theorem action_added (t : PieceTable) (k : Action) : (t.action k).added = t.added := by
  unfold action commit; split
  · rfl
  · split <;> rfl
@[simp] theorem action_newlines (t : PieceTable) (k : Action) : (t.action k).newlines = t.newlines := by
  unfold action commit; split
  · rfl
  · split <;> rfl

theorem commit_content {t : PieceTable} (h : t.WF) : t.commit.content = t.content :=
  (repack_chain h.pieces).2

theorem commit_WF {t : PieceTable} (h : t.WF) : t.commit.WF := by
  have hr := repack_chain h.pieces
  refine ⟨hr.1, ?_, ?_⟩
  · intro ps hps
    rcases List.mem_cons.1 hps with rfl | hps
    · exact hr.1
    · exact h.undos ps hps
  · intro ps hps; cases hps

theorem action_content {t : PieceTable} (h : t.WF) (k : Action) : (t.action k).content = t.content := by
  unfold action
  split
  · rfl
  · split
    · exact commit_content h
    · rfl

theorem action_WF {t : PieceTable} (h : t.WF) (k : Action) : (t.action k).WF := by
  unfold action
  split
  · exact h
  · split
    · have := commit_WF h
      exact ⟨this.pieces, this.undos, this.redos⟩
    · exact h

theorem action_idem (t : PieceTable) (k : Action) : (t.action k).action k = t.action k := by
  unfold action
  by_cases h1 : t.lastAction = some .bulk
  · simp [h1]
  · by_cases h2 : t.lastAction = some k
    · simp [h1, h2]
    · simp only [h1, if_false, ne_eq, h2, not_false_eq_true, if_true]
      simp

/-! ### append and insert -/

/-- Effect of one elementary edit on everything but the history. -/
structure Effect (t t' : PieceTable) (text : Bytes) : Prop where
  wf : t'.WF
  content : t'.content = text
  newlines : t.NewlinesOk → t'.NewlinesOk

theorem chain_last {o a : Bytes} {ps : Pieces} (h : Chain o a 0 ps) : endOffset ps = total ps := by
  have key : ∀ (ps : Pieces) (off : Nat) (p : Piece), Chain o a off ps → ps.getLast? = some p →
      p.offset + p.length = off + total ps := by
    intro ps
    induction ps with
    | nil => intro off p _ h; simp at h
    | cons q qs ih =>
      intro off p hch hl
      obtain ⟨h1, h2, h3, h4⟩ := hch
      cases qs with
      | nil => simp at hl; subst hl; simp [h1]
      | cons r rs =>
        rw [List.getLast?_cons_cons] at hl
        have := ih _ p h4 hl
        simp only [total_cons] at this ⊢; omega
  unfold endOffset
  split
  · rename_i p hl; have := key ps 0 p h hl; omega
  · rename_i hl; simp at hl; simp [hl]

theorem appendCore_effect {t : PieceTable} (hw : t.WF) {x : Bytes} (hx : x ≠ []) :
    Effect t (t.appendCore x) (t.content ++ x) := by
  have hxl : 0 < x.length := List.length_pos_iff.2 hx
  unfold appendCore
  rw [chain_last hw.pieces]
  have hins := pieces_insert_last (pre := t.pieces)
    (p := { offset := total t.pieces, start := t.added.length, length := x.length, original := false })
    (by intro q hq; have := chain_offsets hw.pieces q hq; simp only; omega)
  have hchain : Chain t.original (t.added ++ x) 0 (t.pieces ++
      [{ offset := total t.pieces, start := t.added.length, length := x.length, original := false }]) := by
    rw [chain_append]
    refine ⟨chain_extend x hw.pieces, ?_, hxl, ?_, trivial⟩
    · simp
    · simp [bufOf]
  have hcont : contentOf t.original (t.added ++ x) (t.pieces ++
      [{ offset := total t.pieces, start := t.added.length, length := x.length, original := false }])
        = t.content ++ x := by
    rw [contentOf_append, contentOf_extend x hw.pieces]
    simp [pieceBytes, bufOf, content]
  refine ⟨⟨?_, ?_, ?_⟩, ?_, ?_⟩
  · simp only [hins]; exact hchain
  · intro ps hps; exact chain_extend x (hw.undos ps hps)
  · intro ps hps; exact chain_extend x (hw.redos ps hps)
  · rw [← hcont]; simp only [content, hins]
  · intro hnl
    simp only [NewlinesOk, content, hins]
    rw [hcont]
    have e : total t.pieces = t.content.length := by
      rw [content, chain_content_length hw.pieces]
    rw [hnl, e, newlines_append]

theorem chain_before {o a : Bytes} {pre post : Pieces} {p : Piece} (h : Chain o a 0 (pre ++ p :: post)) :
    (∀ q ∈ pre, q.offset < p.offset) ∧ (∀ q ∈ post, p.offset + p.length ≤ q.offset) ∧
      p.offset = total pre ∧ 0 < p.length ∧ p.start + p.length ≤ (bufOf o a p.original).length ∧
      Chain o a 0 pre ∧ Chain o a (p.offset + p.length) post := by
  rw [chain_append] at h
  obtain ⟨h1, h2, h3, h4, h5⟩ := h
  have e : p.offset = total pre := by omega
  rw [← h2] at h5
  refine ⟨?_, ?_, e, h3, h4, h1, h5⟩
  · intro q hq; have := chain_offsets h1 q hq; omega
  · intro q hq; have := chain_offsets h5 q hq; omega

/-- The pieces of `insertAt` around the split node. -/
theorem insertAt_effect {t : PieceTable} (hw : t.WF) {x : Bytes} (hx : x ≠ []) {k : Nat}
    {pre post : Pieces} {p : Piece} (hps : t.pieces = pre ++ p :: post) (hk : p.contains k = true) :
    Effect t (t.insertAt p k x) (splice t.content k x) := by
  have hxl : 0 < x.length := List.length_pos_iff.2 hx
  have hch := hw.pieces
  rw [hps] at hch
  obtain ⟨hb1, hb2, hoff, hpl, hpb, hcpre, hcpost⟩ := chain_before hch
  rw [contains_iff] at hk
  have hklen : k ≤ t.content.length := by
    rw [content, chain_content_length hw.pieces, hps]; simp; omega
  have hprelen : (contentOf t.original t.added pre).length = p.offset := by
    rw [chain_content_length hcpre, hoff]
  -- content around the split
  have hcontent : t.content = contentOf t.original t.added pre ++ (pieceBytes t.original t.added p ++
      contentOf t.original t.added post) := by simp [content, hps]
  have hplen := pieceBytes_length hpb
  -- the new pieces
  have hpieces : ∃ mid : Pieces, (t.insertAt p k x).pieces = pre ++ (mid ++ post.map (Piece.up x.length)) ∧
      Chain t.original (t.added ++ x) p.offset mid ∧ total mid = p.length + x.length ∧
      contentOf t.original (t.added ++ x) mid = splice (pieceBytes t.original t.added p) (k - p.offset) x := by
    have hsu : Pieces.shiftUp p.offset x.length t.pieces = pre ++ p :: post.map (Piece.up x.length) := by
      rw [hps]
      have := shiftUp_split (pre := pre ++ [p]) (post := post) (off := p.offset) (v := x.length)
        (by intro q hq; simp at hq; rcases hq with hq | rfl
            · have := hb1 q hq; omega
            · omega)
        (by intro q hq; have := hb2 q hq; omega)
      simpa using this
    have hrm : Pieces.removeAt p.offset (pre ++ p :: post.map (Piece.up x.length)) =
        pre ++ post.map (Piece.up x.length) := by
      refine removeAt_split ?_ ?_
      · intro q hq; have := hb1 q hq; omega
      · intro q hq
        simp only [List.mem_map] at hq
        obtain ⟨r, hr, rfl⟩ := hq
        have := hb2 r hr
        simp [Piece.up]; omega
    have hpostge : ∀ q ∈ post.map (Piece.up x.length), p.offset + p.length + x.length ≤ q.offset := by
      intro q hq
      simp only [List.mem_map] at hq
      obtain ⟨r, hr, rfl⟩ := hq
      have := hb2 r hr
      simp [Piece.up]; omega
    have hxb : pieceBytes t.original (t.added ++ x)
        { offset := k, start := t.added.length, length := x.length, original := false } = x := by
      simp [pieceBytes, bufOf]
    by_cases hko : k = p.offset
    · -- at the start of the piece
      refine ⟨[{ offset := k, start := t.added.length, length := x.length, original := false },
        { p with offset := k + x.length }], ?_, ?_, ?_, ?_⟩
      · simp only [insertAt, Piece.split, if_pos hko, hsu, hrm, Pieces.insertOpt]
        rw [pieces_insert_split (by intro q hq; have := hb1 q hq; simp only; omega)
          (by intro q hq; have := hpostge q hq; simp only; omega)]
        have := pieces_insert_split
          (pre := pre ++ [{ offset := k, start := t.added.length, length := x.length, original := false }])
          (post := post.map (Piece.up x.length)) (p := { p with offset := k + x.length })
          (by intro q hq; simp at hq; rcases hq with hq | rfl
              · have := hb1 q hq; simp only; omega
              · simp only; omega)
          (by intro q hq; have := hpostge q hq; simp only; omega)
        simpa using this
      · refine ⟨hko, hxl, by simp [bufOf], ?_, hpl, ?_, trivial⟩
        · simp [hko]
        · have := hpb
          cases hp : p.original <;> simp [hp, bufOf] at this ⊢ <;> omega
      · simp; omega
      · have := pieceBytes_extend x hpb
        simp only [contentOf_cons, contentOf_nil, hxb, List.append_nil]
        have e : pieceBytes t.original (t.added ++ x) { p with offset := k + x.length } =
            pieceBytes t.original (t.added ++ x) p := rfl
        rw [e, this, hko]
        simp [splice]
    · -- inside the piece
      refine ⟨[{ p with length := k - p.offset },
        { offset := k, start := t.added.length, length := x.length, original := false },
        { p with offset := k + x.length, start := p.start + (k - p.offset), length := p.length - (k - p.offset) }],
        ?_, ?_, ?_, ?_⟩
      · simp only [insertAt, Piece.split, if_neg hko, hsu, hrm, Pieces.insertOpt]
        rw [pieces_insert_split (by intro q hq; have := hb1 q hq; simp only; omega)
          (by intro q hq; have := hpostge q hq; simp only; omega)]
        have e1 := pieces_insert_split
          (pre := pre ++ [{ p with length := k - p.offset }])
          (post := post.map (Piece.up x.length))
          (p := { offset := k, start := t.added.length, length := x.length, original := false })
          (by intro q hq; simp at hq; rcases hq with hq | rfl
              · have := hb1 q hq; simp only; omega
              · simp only; omega)
          (by intro q hq; have := hpostge q hq; simp only; omega)
        simp only [List.append_assoc, List.cons_append, List.nil_append] at e1
        rw [e1]
        have e2 := pieces_insert_split
          (pre := pre ++ [{ p with length := k - p.offset },
            { offset := k, start := t.added.length, length := x.length, original := false }])
          (post := post.map (Piece.up x.length))
          (p := { p with offset := k + x.length, start := p.start + (k - p.offset), length := p.length - (k - p.offset) })
          (by intro q hq; simp at hq; rcases hq with hq | rfl | rfl
              · have := hb1 q hq; simp only; omega
              · simp only; omega
              · simp only; omega)
          (by intro q hq; have := hpostge q hq; simp only; omega)
        simpa [Piece.stop] using e2
      · refine ⟨rfl, by simp only; omega, ?_, by simp only; omega, hxl, by simp [bufOf], ?_, by simp only; omega, ?_, trivial⟩
        · have := hpb
          cases hp : p.original <;> simp [hp, bufOf] at this ⊢ <;> omega
        · simp only; omega
        · have := hpb
          cases hp : p.original <;> simp [hp, bufOf] at this ⊢ <;> omega
      · simp; omega
      · simp only [contentOf_cons, contentOf_nil, hxb, List.append_nil]
        have hbuf : ∀ n m, n + m ≤ p.start + p.length →
            pieceBytes t.original (t.added ++ x) { p with start := n, length := m } =
            pieceBytes t.original t.added { p with start := n, length := m } := by
          intro n m hnm
          refine pieceBytes_extend x ?_
          simp only; omega
        have b1 := hbuf p.start (k - p.offset) (by omega)
        have b2 := hbuf (p.start + (k - p.offset)) (p.length - (k - p.offset)) (by omega)
        have f1 : pieceBytes t.original t.added { p with start := p.start, length := k - p.offset } =
            (pieceBytes t.original t.added p).take (k - p.offset) := by
          simp only [pieceBytes, List.take_take]
          congr 1; omega
        have f2 : pieceBytes t.original t.added
              { p with start := p.start + (k - p.offset), length := p.length - (k - p.offset) } =
            (pieceBytes t.original t.added p).drop (k - p.offset) := by
          simp only [pieceBytes, List.drop_take, List.drop_drop]
        have g1 : pieceBytes t.original (t.added ++ x) { p with length := k - p.offset } =
            (pieceBytes t.original t.added p).take (k - p.offset) := by rw [← f1, ← b1]
        have g2 : pieceBytes t.original (t.added ++ x)
              { p with offset := k + x.length, start := p.start + (k - p.offset), length := p.length - (k - p.offset) } =
            (pieceBytes t.original t.added p).drop (k - p.offset) := by rw [← f2, ← b2]; rfl
        rw [g1, g2]
        simp [splice]
  obtain ⟨mid, hp1, hp2, hp3, hp4⟩ := hpieces
  have ho : (t.insertAt p k x).original = t.original := rfl
  have ha : (t.insertAt p k x).added = t.added ++ x := rfl
  have hu : (t.insertAt p k x).undos = t.undos := rfl
  have hr : (t.insertAt p k x).redos = t.redos := rfl
  have hn : (t.insertAt p k x).newlines = setExtend (setExtend [] (t.newlines.map fun i =>
    if k ≤ i then i + x.length else i)) ((matchNewlines x).map (· + k)) := rfl
  have hcont' : (t.insertAt p k x).content = splice t.content k x := by
    simp only [content, ho, ha, hp1, contentOf_append, contentOf_up]
    rw [contentOf_extend x hcpre, contentOf_extend x hcpost, hp4]
    have h1 : contentOf t.original t.added t.pieces = t.content := rfl
    rw [h1, hcontent]
    simp only [splice]
    rw [List.take_append, List.drop_append, List.take_append, List.drop_append, hprelen, hplen]
    have e1 : List.take k (contentOf t.original t.added pre) = contentOf t.original t.added pre :=
      List.take_of_length_le (by omega)
    have e2 : List.drop k (contentOf t.original t.added pre) = [] :=
      List.drop_eq_nil_of_le (by omega)
    have e3 : k - p.offset - p.length = 0 := by omega
    rw [e1, e2, e3]
    simp
  refine ⟨⟨?_, ?_, ?_⟩, hcont', ?_⟩
  · rw [ho, ha, hp1, chain_append, chain_append]
    refine ⟨chain_extend x hcpre, ?_, ?_⟩
    · rw [Nat.zero_add, ← hoff]; exact hp2
    · have := chain_up (v := x.length) (chain_extend x hcpost)
      rw [Nat.zero_add, ← hoff, hp3, ← Nat.add_assoc]; exact this
  · rw [ho, ha, hu]; intro ps hps'; exact chain_extend x (hw.undos ps hps')
  · rw [ho, ha, hr]; intro ps hps'; exact chain_extend x (hw.redos ps hps')
  · intro hnl
    unfold NewlinesOk
    rw [hcont', hn, hnl, newlines_splice hklen]

theorem insert_eq {t : PieceTable} (h : t.WF) {x : Bytes} (hx : x ≠ []) (k : Nat) :
    Effect t (t.insert k x) (splice t.content k x) ∧
      (t.insert k x).undos = (t.action .insert).undos ∧ (t.insert k x).redos = (t.action .insert).redos ∧
      (t.insert k x).lastAction = (t.action .insert).lastAction ∧
      (t.insert k x).original = t.original ∧ (t.insert k x).added = t.added ++ x := by
  have hw := action_WF h .insert
  have hc := action_content h .insert
  have hn := action_newlines t .insert
  have hnl : t.NewlinesOk → (t.action .insert).NewlinesOk := by
    intro hh; unfold NewlinesOk; rw [hn, hc]; exact hh
  unfold insert
  simp only
  rcases Nat.lt_or_ge k t.content.length with hlt | hge
  · have hlt' : k < 0 + total (t.action .insert).pieces := by
      have := chain_content_length hw.pieces
      have h2 : (t.action .insert).content.length = t.content.length := by rw [hc]
      unfold content at h2; unfold content at hlt; omega
    obtain ⟨pre, p, post, e1, e2, e3, e4⟩ := getNode_some hw.pieces (Nat.zero_le k) hlt'
    rw [e2]
    simp only
    have := insertAt_effect hw hx e1 e3
    rw [hc] at this
    refine ⟨⟨this.wf, this.content, fun hh => this.newlines (hnl hh)⟩, rfl, rfl, rfl, ?_, ?_⟩
    · exact action_original t .insert
    · change (t.action .insert).added ++ x = _; rw [action_added]
  · have hge' : 0 + total (t.action .insert).pieces ≤ k := by
      have := chain_content_length hw.pieces
      have h2 : (t.action .insert).content.length = t.content.length := by rw [hc]
      unfold content at h2; unfold content at hge; omega
    rw [getNode_none hw.pieces hge']
    simp only [append, action_idem]
    have := appendCore_effect hw hx
    have hs : splice t.content k x = (t.action .insert).content ++ x := by
      rw [hc]; unfold splice
      rw [List.take_of_length_le hge, List.drop_eq_nil_of_le hge]; simp
    rw [hs]
    refine ⟨⟨this.wf, this.content, fun hh => this.newlines (hnl hh)⟩, rfl, rfl, rfl, ?_, ?_⟩
    · exact action_original t .insert
    · change (t.action .insert).added ++ x = _; rw [action_added]

theorem append_eq {t : PieceTable} (h : t.WF) {x : Bytes} (hx : x ≠ []) :
    Effect t (t.append x) (t.content ++ x) ∧
      (t.append x).undos = (t.action .insert).undos ∧ (t.append x).redos = (t.action .insert).redos ∧
      (t.append x).lastAction = (t.action .insert).lastAction ∧
      (t.append x).original = t.original ∧ (t.append x).added = t.added ++ x := by
  have hw := action_WF h .insert
  have hc := action_content h .insert
  have hn := action_newlines t .insert
  have hnl : t.NewlinesOk → (t.action .insert).NewlinesOk := by
    intro hh; unfold NewlinesOk; rw [hn, hc]; exact hh
  have := appendCore_effect hw hx
  rw [hc] at this
  refine ⟨⟨this.wf, this.content, fun hh => this.newlines (hnl hh)⟩, rfl, rfl, rfl, ?_, ?_⟩
  · exact action_original t .insert
  · change (t.action .insert).added ++ x = _; rw [action_added]

end PieceTable
end Ced

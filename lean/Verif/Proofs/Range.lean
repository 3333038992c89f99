import Verif.Proofs.Delete

/-! Auxiliary lemmas: range reads and lines. -/

namespace Ced
open Spec

@[simp] theorem except_bind_ok {ε α β} (a : α) (f : α → Except ε β) : (Except.ok a >>= f) = f a := rfl
@[simp] theorem except_bind_error {ε α β} (e : ε) (f : α → Except ε β) :
    ((Except.error e : Except ε α) >>= f) = Except.error e := rfl
@[simp] theorem except_pure {ε α} (a : α) : (pure a : Except ε α) = Except.ok a := rfl

namespace PieceTable

theorem sliceR_piece {t : PieceTable} {q : Piece}
    (hq : q.start + q.length ≤ (bufOf t.original t.added q.original).length) {i j : Nat} (hij : i ≤ j)
    (hj : j ≤ q.length) :
    sliceR (t.buffer q) (q.start + i) (q.start + j) =
      .ok (((pieceBytes t.original t.added q).take j).drop i) := by
  have hb : t.buffer q = bufOf t.original t.added q.original := by
    unfold buffer; cases q.original <;> rfl
  rw [hb]
  unfold sliceR
  rw [if_pos (by omega)]
  congr 1
  simp only [pieceBytes, List.take_take, List.drop_take, List.drop_drop]
  congr 1
  omega

/-- the part of a piece read by `range` -/
def readPart (t : PieceTable) (a b : Nat) (p : Piece) : R Bytes :=
  do let rp ← p.ranged a b
     sliceR (t.buffer p) rp.start rp.stop

theorem range_tail {t : PieceTable} {a b : Nat} (ps : Pieces) (off : Nat)
    (h : Chain t.original t.added off ps) (ha : a < off) :
    ∃ parts, (ps.takeWhile (fun p => decide (p.offset < b))).mapM (t.readPart a b) = .ok parts ∧
      parts.flatten = (contentOf t.original t.added ps).take (b - off) := by
  induction ps generalizing off with
  | nil => exact ⟨[], rfl, by simp⟩
  | cons p ps ih =>
    obtain ⟨h1, h2, h3, h4⟩ := h
    by_cases hb : p.offset < b
    · obtain ⟨parts, e1, e2⟩ := ih _ h4 (by omega)
      have hpl := pieceBytes_length h3
      have hca : p.contains a = false := by
        rw [← Bool.not_eq_true, contains_iff]; omega
      have hread : t.readPart a b p = .ok ((pieceBytes t.original t.added p).take (b - off)) := by
        unfold readPart Piece.ranged
        simp only [hca, Bool.false_and, Bool.false_eq_true, if_false]
        by_cases hcb : p.contains b = true
        · rw [if_pos hcb]
          rw [contains_iff] at hcb
          have := sliceR_piece h3 (Nat.zero_le (b - off)) (by omega)
          simp only [Piece.stop]
          simp only [Nat.add_zero, List.drop_zero] at this
          rw [h1]; exact this
        · rw [if_neg hcb]
          rw [contains_iff] at hcb
          have := sliceR_piece h3 (Nat.zero_le p.length) (Nat.le_refl _)
          simp only [Nat.add_zero, List.drop_zero] at this
          simp only [except_bind_ok, Piece.stop, this]
          rw [List.take_of_length_le (by omega), List.take_of_length_le (by omega)]
      refine ⟨(pieceBytes t.original t.added p).take (b - off) :: parts, ?_, ?_⟩
      · simp [hb, hread, e1]
      · rw [contentOf_cons, List.take_append, hpl, List.flatten_cons, e2]
        congr 2; omega
    · refine ⟨[], by simp [hb], ?_⟩
      rw [show b - off = 0 by omega]; simp

theorem range_eq {t : PieceTable} (hw : t.WF) {a b : Nat} (hab : a ≤ b) :
    t.range a b = .ok (if a < t.content.length then some (slice t.content a b) else none) := by
  have hlen := chain_content_length hw.pieces
  have hcl : t.content.length = total t.pieces := hlen
  unfold range
  split
  · rename_i hno
    rw [if_neg]
    intro hlt
    obtain ⟨_, _, _, _, e, _⟩ := getNode_some hw.pieces (Nat.zero_le a) (by omega : a < 0 + total t.pieces)
    rw [hno] at e; cases e
  · rename_i node hnode
    have hlt : a < t.content.length := by
      rcases Nat.lt_or_ge a t.content.length with h | h
      · exact h
      · rw [getNode_none hw.pieces (by omega)] at hnode; cases hnode
    rw [if_pos hlt]
    obtain ⟨pre, p, post, hps, hget, hc, hoff⟩ :=
      getNode_some hw.pieces (Nat.zero_le a) (by omega : a < 0 + total t.pieces)
    rw [hnode] at hget
    cases hget
    have hch := hw.pieces
    rw [hps] at hch
    have hvf : t.pieces.valuesFrom node.offset = node :: post := by rw [hps]; exact valuesFrom_split hch
    obtain ⟨hb1, hb2, hoff', hpl, hpb, hcpre, hcpost⟩ := chain_before hch
    rw [contains_iff] at hc
    rw [hvf]
    have hprelen : (contentOf t.original t.added pre).length = node.offset := by
      rw [chain_content_length hcpre, hoff']
    have hplen := pieceBytes_length hpb
    have hcont : t.content = contentOf t.original t.added pre ++ (pieceBytes t.original t.added node ++
        contentOf t.original t.added post) := by simp [content, hps]
    have hslice : slice t.content a b =
        ((pieceBytes t.original t.added node).take (b - node.offset)).drop (a - node.offset) ++
        (contentOf t.original t.added post).take (b - node.offset - node.length) := by
      unfold slice
      rw [hcont, List.take_append, List.take_append, hprelen, hplen,
        List.take_of_length_le (by omega), List.drop_append, hprelen,
        List.drop_eq_nil_of_le (by omega), List.nil_append, List.drop_append]
      congr 1
      simp only [List.length_take, hplen]
      by_cases hbb : b - node.offset ≤ node.length
      · have : b - node.offset - node.length = 0 := by omega
        rw [this]; simp
      · have : a - node.offset - min (b - node.offset) node.length = 0 := by omega
        rw [this]; rfl
    by_cases hb : node.offset < b
    · obtain ⟨parts, e1, e2⟩ := range_tail (t := t) (a := a) (b := b) post _ hcpost (by omega)
      have hread : t.readPart a b node =
          .ok (((pieceBytes t.original t.added node).take (b - node.offset)).drop (a - node.offset)) := by
        unfold readPart Piece.ranged
        have hca : node.contains a = true := contains_iff.2 hc
        by_cases hcb : node.contains b = true
        · simp only [hca, hcb, Bool.and_self, if_true, subChecked_ok hab, except_bind_ok, except_pure]
          rw [contains_iff] at hcb
          have := sliceR_piece hpb (i := a - node.offset) (j := b - node.offset) (by omega) (by omega)
          simp only [Piece.stop]
          rw [← this]; congr 1 <;> omega
        · simp only [hca, hcb, Bool.and_false, Bool.false_eq_true, if_false, if_true]
          rw [contains_iff] at hcb
          have := sliceR_piece hpb (i := a - node.offset) (j := node.length) (by omega) (by omega)
          rw [List.take_of_length_le (by omega)] at this
          rw [List.take_of_length_le (by omega)]
          simp only [except_bind_ok, Piece.stop]
          rw [← this]; congr 1 <;> omega
      change (do
        let parts ← ((node :: post).takeWhile (fun (q : Piece) => decide (q.offset < b))).mapM (t.readPart a b)
        pure (some parts.flatten)) = _
      simp only [List.takeWhile_cons, hb, decide_true, if_true, List.mapM_cons, hread, e1,
        except_bind_ok, except_pure]
      rw [hslice, List.flatten_cons, e2]
      congr 4
      omega
    · change (do
        let parts ← ((node :: post).takeWhile (fun (q : Piece) => decide (q.offset < b))).mapM (t.readPart a b)
        pure (some parts.flatten)) = _
      simp only [List.takeWhile_cons, hb, decide_false, Bool.false_eq_true, if_false, List.mapM_nil,
        except_bind_ok, except_pure, List.flatten_nil]
      rw [hslice]
      have : b - node.offset = 0 := by omega
      rw [this]; simp

/-- a reversed range -/
theorem range_reversed {t : PieceTable} (hw : t.WF) {a b : Nat} (hab : b < a) :
    (t.content.length ≤ a → t.range a b = .ok none) ∧
    (a < t.content.length → t.range a b = .ok (some []) ∨ t.range a b = .error .overflow) := by
  have hcl : t.content.length = total t.pieces := chain_content_length hw.pieces
  constructor
  · intro h
    unfold range
    rw [getNode_none hw.pieces (by omega)]
  · intro h
    obtain ⟨pre, p, post, hps, hget, hc, hoff⟩ :=
      getNode_some hw.pieces (Nat.zero_le a) (by omega : a < 0 + total t.pieces)
    have hch := hw.pieces
    rw [hps] at hch
    have hvf : t.pieces.valuesFrom p.offset = p :: post := by rw [hps]; exact valuesFrom_split hch
    unfold range
    rw [hget]
    dsimp only
    rw [hvf]
    by_cases hb : p.offset < b
    · right
      have hca : p.contains a = true := hc
      have hcb : p.contains b = true := by
        rw [contains_iff] at hc ⊢; omega
      rw [List.takeWhile_cons, if_pos (by simpa using hb), List.mapM_cons]
      have : p.ranged a b = .error .overflow := by
        unfold Piece.ranged
        rw [hca, hcb]
        simp only [Bool.and_self, if_true, subChecked_err hab]
        rfl
      rw [this]
      rfl
    · left
      rw [List.takeWhile_cons, if_neg (by simpa using hb)]
      rfl

end PieceTable
end Ced

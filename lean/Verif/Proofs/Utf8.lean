import Verif.Model.Text
import Verif.Spec.Unicode
import Verif.Proofs.Lines

/-! Auxiliary lemmas: lossy decoding of well-formed texts. -/

namespace Ced
open Spec

theorem utf8Head_encode (c : Char) (rest : Bytes) :
    utf8Head (String.utf8EncodeChar c ++ rest) = (true, (String.utf8EncodeChar c).length) := by
  have hv : c.val.toNat < 0xD800 ∨ (0xDFFF < c.val.toNat ∧ c.val.toNat < 0x110000) := by
    have := c.valid
    simpa [UInt32.isValidChar, Nat.isValidChar] using this
  unfold String.utf8EncodeChar
  simp only
  generalize c.val.toNat = v at hv
  split
  · simp only [List.cons_append, List.nil_append, utf8Head, UInt8.toNat_ofNat', List.length_cons, List.length_nil]
    rw [if_pos (by omega)]
  · split
    · simp only [List.cons_append, List.nil_append, utf8Head, UInt8.toNat_ofNat', List.length_cons, List.length_nil,
        List.getElem?_cons_zero, Option.getD_some, isCont]
      rw [if_neg (by omega), if_pos (by omega), if_pos]
      simp; omega
    · split
      · simp only [List.cons_append, List.nil_append, utf8Head, UInt8.toNat_ofNat', List.length_cons, List.length_nil,
          List.getElem?_cons_zero, List.getElem?_cons_succ, Option.getD_some, isCont]
        rw [if_neg (by omega), if_neg (by omega), if_pos (by omega), if_pos (by omega), if_pos]
        simp; omega
      · simp only [List.cons_append, List.nil_append, utf8Head, UInt8.toNat_ofNat', List.length_cons, List.length_nil,
          List.getElem?_cons_zero, List.getElem?_cons_succ, Option.getD_some, isCont]
        rw [if_neg (by omega), if_neg (by omega), if_neg (by omega), if_pos (by omega), if_pos (by omega), if_pos,
          if_pos]
        · simp; omega
        · simp; omega

theorem encodeChar_pos (c : Char) : 0 < (String.utf8EncodeChar c).length := by
  rw [String.length_utf8EncodeChar]; exact c.utf8Size_pos

theorem lossyAux_encode (cs : List Char) (fuel : Nat) (h : (encode cs).length ≤ fuel) :
    utf8LossyAux fuel (encode cs) = encode cs := by
  induction cs generalizing fuel with
  | nil => cases fuel <;> simp [encode, utf8LossyAux]
  | cons c cs ih =>
    have hpos := encodeChar_pos c
    have he : encode (c :: cs) = String.utf8EncodeChar c ++ encode cs := by simp [encode]
    rw [he] at h ⊢
    rw [List.length_append] at h
    have hh := utf8Head_encode c (encode cs)
    obtain ⟨b, bs, hb⟩ : ∃ b bs, String.utf8EncodeChar c ++ encode cs = b :: bs := by
      cases hcc : String.utf8EncodeChar c with
      | nil => rw [hcc] at hpos; simp at hpos
      | cons b bs => exact ⟨b, bs ++ encode cs, rfl⟩
    cases fuel with
    | zero => omega
    | succ fuel =>
      rw [hb, utf8LossyAux, ← hb, hh]
      simp only [if_true, List.take_left, List.drop_left]
      rw [ih fuel (by omega)]

theorem lossy_of_isText {s : Bytes} (h : IsText s) : utf8Lossy s = s := by
  obtain ⟨cs, rfl⟩ := h
  exact lossyAux_encode cs _ (Nat.le_refl _)

theorem isText_nil : IsText [] := ⟨[], rfl⟩

theorem isText_append {s t : Bytes} (hs : IsText s) (ht : IsText t) : IsText (s ++ t) := by
  obtain ⟨cs, rfl⟩ := hs
  obtain ⟨ds, rfl⟩ := ht
  exact ⟨cs ++ ds, by simp [encode]⟩

/-- A text that starts with a text continues with a text. -/
theorem isText_cancel {s t : Bytes} (hs : IsText s) (h : IsText (s ++ t)) : IsText t := by
  obtain ⟨ds, rfl⟩ := hs
  obtain ⟨cs, hcs⟩ := h
  induction ds generalizing cs with
  | nil => exact ⟨cs, by simpa [encode] using hcs⟩
  | cons d ds ih =>
    have e1 : encode (d :: ds) = String.utf8EncodeChar d ++ encode ds := by simp [encode]
    rw [e1] at hcs
    cases cs with
    | nil =>
      have := encodeChar_pos d
      have hl := congrArg List.length hcs
      simp [encode] at hl
      have := d.utf8Size_pos; omega
    | cons c cs =>
      have e2 : encode (c :: cs) = String.utf8EncodeChar c ++ encode cs := by simp [encode]
      rw [e2, List.append_assoc] at hcs
      have h1 := utf8Head_encode d (encode ds ++ t)
      rw [hcs, utf8Head_encode] at h1
      have hlen : (String.utf8EncodeChar c).length = (String.utf8EncodeChar d).length := by
        simpa using h1
      have := List.append_inj hcs hlen.symm
      exact ih cs this.2

theorem isBoundary_of_take {s : Bytes} {k : Nat} (hs : IsText s) (h : IsText (s.take k)) : IsBoundary s k :=
  ⟨h, isText_cancel h (by rw [List.take_append_drop]; exact hs)⟩

theorem isText_slice {s : Bytes} {i j : Nat} (hij : i ≤ j) (hi : IsBoundary s i) (hj : IsBoundary s j) :
    IsText (slice s i j) := by
  unfold slice
  have hj1 := hj.1
  have e : s.take j = s.take i ++ (s.take j).drop i := by
    conv => lhs; rw [← List.take_append_drop i (s.take j)]
    rw [List.take_take, Nat.min_eq_left hij]
  rw [e] at hj1
  exact isText_cancel hi.1 hj1

theorem isBoundary_isText {s : Bytes} {k : Nat} (h : IsBoundary s k) : IsText s := by
  have := isText_append h.1 h.2
  rwa [List.take_append_drop] at this

namespace PieceTable

/-- Every piece starts between two characters of the content. -/
def BoundaryPieces (t : PieceTable) (ps : Pieces) : Prop :=
  IsText (contentOf t.original t.added ps) ∧
    ∀ p ∈ ps, IsBoundary (contentOf t.original t.added ps) p.offset

end PieceTable

/-- The pieces of a chain whose starts are boundaries decode to texts. -/
theorem pieces_isText {o a : Bytes} {ps : Pieces} (hch : Chain o a 0 ps) (ht : IsText (contentOf o a ps))
    (hb : ∀ p ∈ ps, IsBoundary (contentOf o a ps) p.offset) : ∀ p ∈ ps, IsText (pieceBytes o a p) := by
  -- generalise: peel the chain from the left, keeping the remaining content a text
  have key : ∀ (ps pre : Pieces), Chain o a 0 (pre ++ ps) → IsText (contentOf o a (pre ++ ps)) →
      (∀ p ∈ ps, IsBoundary (contentOf o a (pre ++ ps)) p.offset) → ∀ p ∈ ps, IsText (pieceBytes o a p) := by
    intro ps
    induction ps with
    | nil => intro pre _ _ _ p hp; cases hp
    | cons q qs ih =>
      intro pre hch ht hb p hp
      rcases List.mem_cons.1 hp with rfl | hp
      · obtain ⟨h1, h2, h3, h4, h5, h6, h7⟩ := PieceTable.chain_before hch
        have hlen := chain_content_length h6
        have hplen := pieceBytes_length h5
        have hb0 := hb p (by simp)
        have hend : IsBoundary (contentOf o a (pre ++ p :: qs)) (p.offset + p.length) := by
          cases qs with
          | nil =>
            refine isBoundary_of_take ht ?_
            rw [List.take_of_length_le]
            · exact ht
            · simp [hlen, hplen, h3]
          | cons r rs =>
            have := hb r (by simp)
            have e : r.offset = p.offset + p.length := h7.1
            rwa [e] at this
        have hs := isText_slice (Nat.le_add_right _ _) hb0 hend
        have e : slice (contentOf o a (pre ++ p :: qs)) p.offset (p.offset + p.length) = pieceBytes o a p := by
          unfold slice
          rw [contentOf_append, contentOf_cons, List.take_append, List.take_append, hlen, hplen, h3,
            List.take_of_length_le (by omega), List.drop_append, List.drop_eq_nil_of_le (by omega)]
          have e1 : total pre + p.length - total pre = p.length := by omega
          rw [e1, List.take_of_length_le (by omega)]
          simp [hlen]
        rwa [e] at hs
      · refine ih (pre ++ [q]) ?_ ?_ ?_ p hp
        · simpa using hch
        · simpa using ht
        · intro r hr
          have := hb r (by simp [hr])
          simpa using this
  exact key ps [] (by simpa using hch) (by simpa using ht) (by simpa using hb)

namespace PieceTable

theorem text_eq {t : PieceTable} (hw : t.WF) (hb : t.BoundaryPieces t.pieces) : t.text = .ok t.content := by
  have hp := pieces_isText hw.pieces hb.1 hb.2
  have key : ∀ (ps : Pieces) (off : Nat), Chain t.original t.added off ps →
      (∀ p ∈ ps, IsText (pieceBytes t.original t.added p)) →
      (ps.mapM (fun p => do
        let bs ← sliceR (t.buffer p) p.start p.stop
        pure (utf8Lossy bs)) : R (List Bytes)) = .ok (ps.map (pieceBytes t.original t.added)) := by
    intro ps
    induction ps with
    | nil => intro off _ _; rfl
    | cons q qs ih =>
      intro off hch hq
      obtain ⟨h1, h2, h3, h4⟩ := hch
      have hs := sliceR_piece h3 (Nat.zero_le q.length) (Nat.le_refl _)
      simp only [Nat.add_zero, List.drop_zero] at hs
      rw [List.take_of_length_le (by rw [pieceBytes_length h3]; omega)] at hs
      rw [List.mapM_cons]
      simp only [Piece.stop, hs, except_bind_ok, except_pure]
      have := ih _ h4 (fun p hp => hq p (by simp [hp]))
      simp only [Piece.stop, except_pure] at this
      rw [this]
      simp only [except_bind_ok, List.map_cons]
      rw [lossy_of_isText (hq q (by simp))]
  unfold text
  rw [key t.pieces 0 hw.pieces hp]
  simp [content, contentOf, List.flatMap]

end PieceTable
end Ced

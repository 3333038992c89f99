import Verif.Proofs.Whole
import Verif.Proofs.Lossy

/-! Auxiliary lemmas: when the text of a buffer is read as it is (C09, C96). -/

namespace Ced
open Spec

theorem head_false {s : Bytes} {n : Nat} (h : utf8Head s = (false, n)) : n ≤ 3 := by
  unfold utf8Head at h
  cases s with
  | nil => cases h
  | cons b rest =>
    dsimp only at h
    repeat' split at h
    all_goals (injection h with h1 h2)
    all_goals first | omega | cases h1

theorem head_pos (b : UInt8) (bs : Bytes) : 0 < (utf8Head (b :: bs)).2 := by
  by_cases hb : b.toNat < 128
  · unfold utf8Head
    dsimp only
    rw [if_pos hb]
    decide
  · exact (head_big (bs := bs) hb).1

theorem lossyAux_length : ∀ {fuel : Nat} {s : Bytes}, s.length ≤ fuel → s.length ≤ (utf8LossyAux fuel s).length
  | 0, _, h => by
    have := List.length_eq_zero_iff.1 (Nat.le_zero.1 h)
    subst this
    exact Nat.le_refl _
  | _ + 1, [], _ => by simp
  | fuel + 1, b :: bs, h => by
    rw [utf8LossyAux]
    have hpos : 0 < (utf8Head (b :: bs)).2 := head_pos b bs
    have ih := lossyAux_length (fuel := fuel) (s := (b :: bs).drop (utf8Head (b :: bs)).2)
      (by simp only [List.length_drop, List.length_cons] at h ⊢; omega)
    rw [List.length_append]
    simp only [List.length_drop] at ih
    by_cases hh : (utf8Head (b :: bs)).1 = true
    · rw [if_pos hh, List.length_take]
      omega
    · have := head_false (s := b :: bs) (n := (utf8Head (b :: bs)).2) (by
        rw [← Bool.eq_false_iff.2 (by simpa using hh)])
      rw [if_neg hh]
      simp only [replacementChar, List.length_cons, List.length_nil] at *
      omega

theorem lossy_length (s : Bytes) : s.length ≤ (utf8Lossy s).length := lossyAux_length (Nat.le_refl _)

/-- pieces read one by one give their bytes only if each of them is a text -/
theorem lossy_concat (xs : List Bytes) (h : (xs.map utf8Lossy).flatten = xs.flatten) : ∀ x ∈ xs, IsText x := by
  have key : ∀ ys : List Bytes, ys.flatten.length ≤ ((ys.map utf8Lossy).flatten).length := by
    intro ys
    induction ys with
    | nil => simp
    | cons y ys ih =>
      simp only [List.map_cons, List.flatten_cons, List.length_append]
      have := lossy_length y
      omega
  induction xs with
  | nil => intro x hx; cases hx
  | cons x xs ih =>
    simp only [List.map_cons, List.flatten_cons] at h
    have hl := congrArg List.length h
    simp only [List.length_append] at hl
    have h1 := lossy_length x
    have h2 := key xs
    obtain ⟨e1, e2⟩ := List.append_inj h (by omega)
    intro y hy
    rcases List.mem_cons.1 hy with rfl | hy
    · rw [← e1]; exact PieceTable.lossy_isText _
    · exact ih e2 y hy

namespace PieceTable

theorem text_lossy {t : PieceTable} (hw : t.WF) :
    t.text = .ok ((t.pieces.map (pieceBytes t.original t.added)).map utf8Lossy).flatten := by
  have key : ∀ (ps : Pieces) (off : Nat), Chain t.original t.added off ps →
      (ps.mapM (fun p => do
        let bs ← sliceR (t.buffer p) p.start p.stop
        pure (utf8Lossy bs)) : R (List Bytes)) = .ok ((ps.map (pieceBytes t.original t.added)).map utf8Lossy) := by
    intro ps
    induction ps with
    | nil => intro off _; rfl
    | cons q qs ih =>
      intro off hch
      obtain ⟨h1, h2, h3, h4⟩ := hch
      have hs := sliceR_piece h3 (Nat.zero_le q.length) (Nat.le_refl _)
      simp only [Nat.add_zero, List.drop_zero] at hs
      rw [List.take_of_length_le (by rw [pieceBytes_length h3]; omega)] at hs
      rw [List.mapM_cons]
      simp only [Piece.stop, hs, except_bind_ok, except_pure]
      have := ih _ h4
      simp only [Piece.stop, except_pure] at this
      rw [this]
      simp only [except_bind_ok, List.map_cons]
  unfold text
  rw [key t.pieces 0 hw.pieces]
  rfl

/-- read as it is: every piece is a text -/
theorem text_exact {t : PieceTable} (hw : t.WF) (h : t.text = .ok t.content) :
    ∀ p ∈ t.pieces, IsText (pieceBytes t.original t.added p) := by
  rw [text_lossy hw] at h
  injection h with h
  have := lossy_concat _ (h.trans (by simp [content, contentOf, List.flatMap]))
  intro p hp
  exact this _ (List.mem_map.2 ⟨p, hp, rfl⟩)

theorem isText_contentOf {o a : Bytes} {ps : Pieces} (h : ∀ p ∈ ps, IsText (pieceBytes o a p)) : IsText (contentOf o a ps) := by
  induction ps with
  | nil => exact isText_nil
  | cons p ps ih =>
    rw [contentOf_cons]
    exact isText_append (h p (by simp)) (ih fun q hq => h q (by simp [hq]))

/-- no piece goes across the place -/
def Uncrossed (t : PieceTable) (k : Nat) : Prop := ∀ p ∈ t.pieces, p.offset + p.length ≤ k ∨ k ≤ p.offset

theorem chain_uncrossed {o a : Bytes} {off : Nat} {ps : Pieces} (h : Chain o a off ps) {k : Nat} (hk : off ≤ k)
    (hu : ∀ p ∈ ps, p.offset + p.length ≤ k ∨ k ≤ p.offset) :
    ∃ l r, ps = l ++ r ∧ (contentOf o a ps).take (k - off) = contentOf o a l ∧ (contentOf o a ps).drop (k - off) = contentOf o a r := by
  induction ps generalizing off with
  | nil => exact ⟨[], [], rfl, by simp [contentOf], by simp [contentOf]⟩
  | cons p ps ih =>
    obtain ⟨h1, h2, h3, h4⟩ := h
    have hl := pieceBytes_length h3
    rcases hu p (by simp) with hp | hp
    · obtain ⟨l, r, e1, e2, e3⟩ := ih h4 (by omega) (fun q hq => hu q (by simp [hq]))
      refine ⟨p :: l, r, by rw [e1]; rfl, ?_, ?_⟩
      · rw [contentOf_cons, contentOf_cons, List.take_append, hl, List.take_of_length_le (by omega),
          show k - off - p.length = k - (off + p.length) by omega, e2]
      · rw [contentOf_cons, List.drop_append, hl, List.drop_eq_nil_of_le (by omega),
          show k - off - p.length = k - (off + p.length) by omega, e3, List.nil_append]
    · have : k - off = 0 := by omega
      rw [this]
      exact ⟨[], p :: ps, rfl, by simp [contentOf], by simp⟩

/-- where no piece goes across, a text read as it is is between two characters -/
theorem exact_boundary {t : PieceTable} (hw : t.WF) (h : t.text = .ok t.content) {k : Nat} (hu : t.Uncrossed k) :
    IsBoundary t.content k := by
  have hp := text_exact hw h
  obtain ⟨l, r, e1, e2, e3⟩ := chain_uncrossed hw.pieces (Nat.zero_le k) hu
  rw [Nat.sub_zero] at e2 e3
  unfold IsBoundary content
  rw [e2, e3]
  exact ⟨isText_contentOf fun p h => hp p (by simp [e1, h]), isText_contentOf fun p h => hp p (by simp [e1, h])⟩

theorem starts_uncrossed {t : PieceTable} (hw : t.WF) {k : Nat} (h : t.StartsAt k) : t.Uncrossed k := by
  obtain ⟨q, hq, rfl⟩ := h
  obtain ⟨pre, post, e⟩ := List.append_of_mem hq
  have hch := hw.pieces
  rw [e] at hch
  obtain ⟨_, hb2, ho, _, _, hcp, _⟩ := chain_before hch
  intro p hp
  rw [e] at hp
  rcases List.mem_append.1 hp with hp | hp
  · have := chain_offsets hcp p hp
    left; omega
  · rcases List.mem_cons.1 hp with rfl | hp
    · exact .inr (Nat.le_refl _)
    · have := hb2 p hp
      right; omega

theorem insert_uncrossed {t : PieceTable} (hw : t.WF) {x : Bytes} (hx : x ≠ []) {k : Nat} (hk : k < t.content.length) :
    (t.insert k x).Uncrossed k := by
  refine starts_uncrossed (insert_eq hw hx k).1.wf ?_
  have hw' := action_WF hw .insert
  have hc := action_content hw .insert
  have hlt : k < 0 + total (t.action .insert).pieces := by
    rw [← hc, content, chain_content_length hw'.pieces] at hk; omega
  obtain ⟨pre, p, post, hps, hget, _⟩ := getNode_some hw'.pieces (Nat.zero_le k) hlt
  unfold insert
  dsimp only
  rw [hget]
  dsimp only [insertAt]
  exact ⟨⟨k, (t.action .insert).added.length, x.length, false⟩,
    mem_pieces_insert.2 (.inr (mem_pieces_insert.2 (.inl rfl))), rfl⟩

theorem deleteCore_uncrossed {h : StaleHandle} {t t' : PieceTable} (hw : t.WF) {k n : Nat}
    (hd : t.deleteCore h k n = .ok t') : t'.Uncrossed k := by
  have hclen := chain_content_length hw.pieces
  unfold deleteCore at hd
  split at hd
  · cases hd; intro p hp; cases hp
  · split at hd
    · rename_i hno
      cases hd
      intro p hp
      obtain ⟨pre, post, e⟩ := List.append_of_mem hp
      left
      rcases Nat.lt_or_ge k t.content.length with hlt | hge
      · obtain ⟨_, _, _, _, e, _⟩ := getNode_some hw.pieces (Nat.zero_le k)
          (by unfold content at hlt; omega : k < 0 + total t.pieces)
        rw [hno] at e; cases e
      · have := chain_offsets hw.pieces p hp
        unfold content at hge
        omega
    · rename_i node hnode
      have hlt : k < 0 + total t.pieces := by
        rcases Nat.lt_or_ge k (0 + total t.pieces) with hh | hh
        · exact hh
        · rw [getNode_none hw.pieces hh] at hnode; cases hnode
      obtain ⟨pre, p, post, hps, hget, hc, _⟩ := getNode_some hw.pieces (Nat.zero_le k) hlt
      rw [hnode] at hget
      cases hget
      have hch := hw.pieces
      rw [hps] at hch
      obtain ⟨hb1, hb2, hoff, hpl, hpb, hcpre, hcpost⟩ := chain_before hch
      rw [contains_iff] at hc
      have hvf : t.pieces.valuesFrom node.offset = node :: post := by rw [hps]; exact valuesFrom_split hch
      simp only [hvf] at hd
      obtain ⟨mid, rest, hpost, htw, hm1, hm2⟩ := takeWhile_split hcpost (k + n)
      by_cases hstart : node.offset < k + n
      case neg => simp [hstart] at hd
      have htaken : (node :: post).takeWhile (fun q => decide (q.offset < k + n)) = node :: mid := by
        simp [hstart, htw]
      rw [htaken] at hd
      have hrem : (node :: mid).foldl (fun ps q => Pieces.removeAt q.offset ps) t.pieces = pre ++ rest := by
        have e : t.pieces = pre ++ ((node :: mid) ++ rest) := by rw [hps, hpost]; simp
        have hpc := hcpost
        rw [hpost, chain_append] at hpc
        rw [e]
        refine foldl_removeAt ?_ ?_
        · intro q hq r hr
          have h1 := hb1 q hq
          rcases List.mem_cons.1 hr with rfl | hr
          · omega
          · have := chain_offsets hpc.1 r hr; omega
        · intro q hq r hr
          have h1 := chain_offsets hpc.2 q hq
          rcases List.mem_cons.1 hr with rfl | hr
          · omega
          · have := chain_offsets hpc.1 r hr; omega
      rw [hrem] at hd
      have hhd : (node :: mid).head? = some node := rfl
      obtain ⟨last, hlast⟩ : ∃ last, (node :: mid).getLast? = some last :=
        ⟨(node :: mid).getLast (by simp), List.getLast?_eq_some_getLast (by simp)⟩
      rw [hhd, hlast] at hd
      simp only at hd
      have hpre : ∀ q ∈ pre, q.offset + q.length ≤ k := fun q hq => by have := chain_offsets hcpre q hq; omega
      have hheadOff : ∀ q, (node.truncate k n).1 = some q → q.offset + q.length ≤ k := by
        intro q hq; unfold Piece.truncate at hq; simp only at hq
        split at hq <;> simp at hq; rw [← hq]; simp only; omega
      have htailOff : ∀ q, (last.truncate k n).2 = some q → q.offset = k := by
        intro q hq; unfold Piece.truncate at hq; simp only at hq
        split at hq <;> simp at hq; rw [← hq]
      generalize (node.truncate k n).1 = head at hd hheadOff
      generalize (last.truncate k n).2 = tail at hd htailOff
      have hmem : ∀ q, q ∈ Pieces.insertOpt tail (Pieces.insertOpt head (pre ++ rest)) →
          tail = some q ∨ q.offset + q.length ≤ k ∨ k + n ≤ q.offset := by
        intro q hq
        rcases mem_insertOpt.1 hq with hq | hq
        · exact .inl hq
        · rcases mem_insertOpt.1 hq with hq | hq
          · exact .inr (.inl (hheadOff _ hq))
          · rcases List.mem_append.1 hq with hq | hq
            · exact .inr (.inl (hpre q hq))
            · exact .inr (.inr (hm2 q hq))
      have hcase : ∀ (c : Piece → Prop) [DecidablePred c], (∀ q, tail = some q → ¬ c q) →
          ∀ q ∈ (Pieces.insertOpt tail (Pieces.insertOpt head (pre ++ rest))).map
            (fun p => if c p then { p with offset := p.offset - n } else p),
          q.offset + q.length ≤ k ∨ k ≤ q.offset := by
        intro c _ hct q hq
        obtain ⟨r, hr, rfl⟩ := List.mem_map.1 hq
        have := hmem r hr
        split
        · rename_i hcr
          rcases this with e | e | e
          · exact absurd hcr (hct r e)
          · left; dsimp only; omega
          · right; dsimp only; omega
        · rcases this with e | e | e
          · right; rw [htailOff r e]; exact Nat.le_refl _
          · exact .inl e
          · right; omega
      have hplain : ∀ q ∈ Pieces.insertOpt tail (Pieces.insertOpt head (pre ++ rest)),
          q.offset + q.length ≤ k ∨ k ≤ q.offset := by
        intro q hq
        rcases hmem q hq with e | e | e
        · right; rw [htailOff q e]; exact Nat.le_refl _
        · exact .inl e
        · right; omega
      split at hd
      · rename_i ln hln
        cases hd
        refine hcase (fun p => ln.offset < p.offset) fun q hq => ?_
        rw [hq] at hln
        simp at hln
        subst hln
        exact Nat.lt_irrefl _
      · rename_i hln
        have htl : tail = none := by cases tail <;> simp_all
        split at hd
        · split at hd
          · cases hd
            exact hcase _ fun q hq => by rw [htl] at hq; cases hq
          · split at hd
            · cases hd; exact hplain
            · cases hd
        · split at hd
          · cases hd; exact hplain
          · cases hd

theorem delete_uncrossed {h : StaleHandle} {t t' : PieceTable} (hw : t.WF) {k n : Nat}
    (hd : t.delete h k n = .ok t') : t'.Uncrossed k := deleteCore_uncrossed (action_WF hw .delete) hd

end PieceTable
end Ced

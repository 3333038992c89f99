import Verif.Proofs.Utf8

/-! Auxiliary lemmas: edits at character boundaries keep pieces at character boundaries. -/

namespace Ced
open Spec

theorem boundary_zero {s : Bytes} (h : IsText s) : IsBoundary s 0 := ⟨by simpa using isText_nil, by simpa⟩

theorem isText_splice {s x : Bytes} {k : Nat} (hk : IsBoundary s k) (hx : IsText x) : IsText (splice s k x) :=
  isText_append (isText_append hk.1 hx) hk.2

theorem boundary_splice_before {s x : Bytes} {k j : Nat} (hk : IsBoundary s k) (hx : IsText x) (hj : IsBoundary s j)
    (hkl : k ≤ s.length) (hjk : j ≤ k) : IsBoundary (splice s k x) j := by
  refine isBoundary_of_take (isText_splice hk hx) ?_
  unfold splice
  rw [List.append_assoc, List.take_append_of_le_length (by simp; omega), List.take_take, Nat.min_eq_left hjk]
  exact hj.1

theorem boundary_splice_after {s x : Bytes} {k j : Nat} (hk : IsBoundary s k) (hx : IsText x) (hj : IsBoundary s j)
    (hkl : k ≤ s.length) (hjk : k ≤ j) : IsBoundary (splice s k x) (j + x.length) := by
  refine isBoundary_of_take (isText_splice hk hx) ?_
  unfold splice
  have hl : (s.take k).length = k := by simp; omega
  rw [List.take_append, List.length_append, hl, List.take_of_length_le (by simp; omega)]
  refine isText_append (isText_append hk.1 hx) ?_
  have e : (s.drop k).take (j + x.length - (k + x.length)) = slice s k j := by
    unfold slice
    rw [List.drop_take]; congr 1; omega
  rw [e]
  exact isText_slice hjk hk hj

theorem isText_cut {s : Bytes} {k n : Nat} (hk : IsBoundary s k) (hn : IsBoundary s (k + n)) : IsText (cut s k n) :=
  isText_append hk.1 hn.2

theorem boundary_cut_before {s : Bytes} {k n j : Nat} (hk : IsBoundary s k) (hn : IsBoundary s (k + n))
    (hj : IsBoundary s j) (hkl : k ≤ s.length) (hjk : j ≤ k) : IsBoundary (cut s k n) j := by
  refine isBoundary_of_take (isText_cut hk hn) ?_
  unfold cut
  rw [List.take_append_of_le_length (by simp; omega), List.take_take, Nat.min_eq_left hjk]
  exact hj.1

theorem boundary_cut_after {s : Bytes} {k n j : Nat} (hk : IsBoundary s k) (hn : IsBoundary s (k + n))
    (hj : IsBoundary s j) (hkl : k ≤ s.length) (hjk : k + n ≤ j) : IsBoundary (cut s k n) (j - n) := by
  refine isBoundary_of_take (isText_cut hk hn) ?_
  unfold cut
  have hl : (s.take k).length = k := by simp; omega
  rw [List.take_append, hl, List.take_of_length_le (by omega)]
  refine isText_append hk.1 ?_
  have e : (s.drop (k + n)).take (j - n - k) = slice s (k + n) j := by
    unfold slice
    rw [List.drop_take]; congr 1; omega
  rw [e]
  exact isText_slice hjk hn hj

theorem mem_pieces_insert {p q : Piece} {ps : Pieces} : q ∈ Pieces.insert p ps ↔ q = p ∨ q ∈ ps := by
  induction ps with
  | nil => simp [Pieces.insert]
  | cons r rs ih =>
    simp only [Pieces.insert]
    split
    · simp
    · simp only [List.mem_cons, ih]
      constructor <;> (intro h; rcases h with h | h | h <;> simp [h])

theorem mem_insertOpt {p : Option Piece} {q : Piece} {ps : Pieces} :
    q ∈ Pieces.insertOpt p ps ↔ p = some q ∨ q ∈ ps := by
  cases p with
  | none => simp [Pieces.insertOpt]
  | some p => simp [Pieces.insertOpt, mem_pieces_insert, eq_comm]

namespace PieceTable

theorem startsAt_insertAt {t : PieceTable} {node : Piece} {k j : Nat} {x : Bytes}
    (h : (t.insertAt node k x).StartsAt j) :
    (j = node.offset ∧ node.offset ≠ k) ∨ j = k ∨ j = k + x.length ∨
      (∃ p ∈ t.pieces, p.offset ≤ node.offset ∧ j = p.offset) ∨
      (∃ p ∈ t.pieces, node.offset < p.offset ∧ j = p.offset + x.length) := by
  obtain ⟨q, hq, rfl⟩ := h
  have hold : ∀ q, q ∈ Pieces.removeAt node.offset (Pieces.shiftUp node.offset x.length t.pieces) →
      (∃ p ∈ t.pieces, p.offset ≤ node.offset ∧ q.offset = p.offset) ∨
      (∃ p ∈ t.pieces, node.offset < p.offset ∧ q.offset = p.offset + x.length) := by
    intro q hq
    simp only [Pieces.removeAt, Pieces.shiftUp, List.mem_filter, List.mem_map] at hq
    obtain ⟨⟨p, hp, rfl⟩, _⟩ := hq
    split
    · exact Or.inr ⟨p, hp, by assumption, rfl⟩
    · exact Or.inl ⟨p, hp, by omega, rfl⟩
  simp only [insertAt, Piece.split] at hq
  by_cases hk : k = node.offset
  · simp only [if_pos hk, mem_pieces_insert, Pieces.insertOpt] at hq
    rcases hq with rfl | rfl | hq
    · exact Or.inr (Or.inr (Or.inl rfl))
    · exact Or.inr (Or.inl rfl)
    · exact Or.inr (Or.inr (Or.inr (hold q hq)))
  · simp only [if_neg hk, mem_pieces_insert, Pieces.insertOpt] at hq
    rcases hq with rfl | rfl | rfl | hq
    · exact Or.inr (Or.inr (Or.inl rfl))
    · exact Or.inr (Or.inl rfl)
    · exact Or.inl ⟨rfl, fun e => hk e.symm⟩
    · exact Or.inr (Or.inr (Or.inr (hold q hq)))

/-- Piece starts after a successful delete. -/
theorem startsAt_deleteCore {h : StaleHandle} (hf : h.follows = true) {t t' : PieceTable} (hw : t.WF) {k n j : Nat}
    (hd : t.deleteCore h k n = .ok t') (hj : t'.StartsAt j) :
    j = k ∨ (j ≤ k ∧ t.StartsAt j) ∨ (∃ i, k + n ≤ i ∧ j = i - n ∧ t.StartsAt i) ∨ (t.content.length ≤ k ∧ t.StartsAt j) := by
  have hclen := chain_content_length hw.pieces
  unfold deleteCore at hd
  split at hd
  · cases hd; obtain ⟨q, hq, _⟩ := hj; cases hq
  · split at hd
    · rename_i hno
      cases hd
      refine Or.inr (Or.inr (Or.inr ⟨?_, hj⟩))
      rcases Nat.lt_or_ge k t.content.length with hlt | hge
      · obtain ⟨_, _, _, _, e, _⟩ := getNode_some hw.pieces (Nat.zero_le k)
          (by unfold content at hlt; omega : k < 0 + total t.pieces)
        rw [hno] at e; cases e
      · exact hge
    · rename_i node hnode
      have hlt : k < 0 + total t.pieces := by
        rcases Nat.lt_or_ge k (0 + total t.pieces) with hh | hh
        · exact hh
        · rw [getNode_none hw.pieces hh] at hnode; cases hnode
      obtain ⟨pre, p, post, hps, hget, hc, _⟩ := getNode_some hw.pieces (Nat.zero_le k) hlt
      rw [hnode] at hget
      cases hget
      have hch := hw.pieces
      rw [hps] at hch
      obtain ⟨hb1, hb2, hoff, hpl, hpb, hcpre, hcpost⟩ := chain_before hch
      rw [contains_iff] at hc
      have hvf : t.pieces.valuesFrom node.offset = node :: post := by rw [hps]; exact valuesFrom_split hch
      simp only [hvf] at hd
      obtain ⟨mid, rest, hpost, htw, hm1, hm2⟩ := takeWhile_split hcpost (k + n)
      by_cases hstart : node.offset < k + n
      case neg => simp [hstart] at hd
      have htaken : (node :: post).takeWhile (fun q => decide (q.offset < k + n)) = node :: mid := by
        simp [hstart, htw]
      rw [htaken] at hd
      have hrem : (node :: mid).foldl (fun ps q => Pieces.removeAt q.offset ps) t.pieces = pre ++ rest := by
        have e : t.pieces = pre ++ ((node :: mid) ++ rest) := by rw [hps, hpost]; simp
        have hpc := hcpost
        rw [hpost, chain_append] at hpc
        rw [e]
        refine foldl_removeAt ?_ ?_
        · intro q hq r hr
          have h1 := hb1 q hq
          rcases List.mem_cons.1 hr with rfl | hr
          · omega
          · have := chain_offsets hpc.1 r hr; omega
        · intro q hq r hr
          have h1 := chain_offsets hpc.2 q hq
          rcases List.mem_cons.1 hr with rfl | hr
          · omega
          · have := chain_offsets hpc.1 r hr; omega
      rw [hrem] at hd
      have hhd : (node :: mid).head? = some node := rfl
      obtain ⟨last, hlast⟩ : ∃ last, (node :: mid).getLast? = some last :=
        ⟨(node :: mid).getLast (by simp), List.getLast?_eq_some_getLast (by simp)⟩
      rw [hhd, hlast] at hd
      simp only at hd
      -- membership in the remaining pieces
      have hpre : ∀ q ∈ pre, q.offset ≤ k ∧ t.StartsAt q.offset := fun q hq =>
        ⟨by have := hb1 q hq; omega, q, by simp [hps, hq], rfl⟩
      have hrst : ∀ q ∈ rest, k + n ≤ q.offset ∧ t.StartsAt q.offset := fun q hq =>
        ⟨hm2 q hq, q, by simp [hps, hpost, hq], rfl⟩
      have hheadOff : ∀ q, (node.truncate k n).1 = some q → q.offset = node.offset := by
        intro q hq; unfold Piece.truncate at hq; simp only at hq
        split at hq <;> simp at hq; rw [← hq]
      have htailOff : ∀ q, (last.truncate k n).2 = some q → q.offset = k := by
        intro q hq; unfold Piece.truncate at hq; simp only at hq
        split at hq <;> simp at hq; rw [← hq]
      generalize (node.truncate k n).1 = head at hd hheadOff
      generalize (last.truncate k n).2 = tail at hd htailOff
      have hmem : ∀ q, q ∈ Pieces.insertOpt tail (Pieces.insertOpt head (pre ++ rest)) →
          q.offset = k ∨ q.offset = node.offset ∨ q ∈ pre ∨ q ∈ rest := by
        intro q hq
        rcases mem_insertOpt.1 hq with hq | hq
        · exact Or.inl (htailOff _ hq)
        · rcases mem_insertOpt.1 hq with hq | hq
          · exact Or.inr (Or.inl (hheadOff _ hq))
          · exact Or.inr (Or.inr (List.mem_append.1 hq))
      have hnodeS : t.StartsAt node.offset := ⟨node, by simp [hps], rfl⟩
      -- all the branches
      have hcase : ∀ (c : Piece → Prop) [DecidablePred c] (ps : Pieces),
          (∀ q ∈ ps, q.offset = k ∨ q.offset = node.offset ∨ q ∈ pre ∨ q ∈ rest) →
          (∀ q ∈ ps, c q → node.offset < q.offset ∧ q.offset ≠ k) → (∀ q ∈ ps, q ∈ rest → c q) →
          ∀ q ∈ ps.map (fun p => if c p then { p with offset := p.offset - n } else p),
          q.offset = j →
          j = k ∨ (j ≤ k ∧ t.StartsAt j) ∨ (∃ i, k + n ≤ i ∧ j = i - n ∧ t.StartsAt i) := by
        intro c _ ps hps' hc1 hc2 q hq hqj
        simp only [List.mem_map] at hq
        obtain ⟨r, hr, rfl⟩ := hq
        split at hqj
        · rename_i hcr
          have ⟨hg, hg'⟩ := hc1 r hr hcr
          simp only at hqj
          rcases hps' r hr with e | e | e | e
          · exact absurd e hg'
          · omega
          · have := hb1 r e; omega
          · exact Or.inr (Or.inr ⟨r.offset, (hrst r e).1, hqj.symm, (hrst r e).2⟩)
        · rename_i hcr
          rcases hps' r hr with e | e | e | e
          · left; omega
          · right; left; rw [← hqj, e]; exact ⟨by omega, hnodeS⟩
          · right; left; rw [← hqj]; exact hpre r e
          · exact absurd (hc2 r hr e) hcr
      obtain ⟨q, hq, hqj⟩ := hj
      have hrestgt : ∀ r ∈ rest, node.offset < r.offset := by
        intro r hr
        have := chain_offsets hcpost r (by simp [hpost, hr]); omega
      split at hd
      · rename_i ln hln
        cases hd
        simp only [Pieces.shiftDown] at hq
        have hlnoff : (ln.offset = k ∨ ln.offset = node.offset) ∧ (tail ≠ none → ln.offset = k) := by
          cases tail with
          | some tl => simp at hln; subst hln; exact ⟨Or.inl (htailOff _ rfl), fun _ => htailOff _ rfl⟩
          | none => simp at hln; exact ⟨Or.inr (hheadOff _ hln), fun h => absurd rfl h⟩
        have := hcase (fun p => ln.offset < p.offset) _ hmem ?_ ?_ q hq hqj
        · rcases this with h | h | h
          · exact Or.inl h
          · exact Or.inr (Or.inl h)
          · exact Or.inr (Or.inr (Or.inl h))
        · intro r hr hlt'
          rcases hmem r hr with e | e | e | e
          · refine ⟨by omega, ?_⟩
            -- a piece at `k` other than the tail would come from the tail itself
            cases htl : tail with
            | some tl =>
              have := hlnoff.2 (by rw [htl]; simp)
              omega
            | none =>
              rw [htl] at hr hln
              rcases mem_insertOpt.1 hr with hr | hr
              · cases hr
              · rcases mem_insertOpt.1 hr with hr | hr
                · have : ln.offset = r.offset := by
                    rw [hr] at hln; simp at hln; rw [← hln]
                  omega
                · rcases List.mem_append.1 hr with hr | hr
                  · have := hb1 r hr; omega
                  · have h3 : node.offset + node.length ≤ r.offset := by
                      have := chain_offsets hcpost r (by simp [hpost, hr]); omega
                    omega
          · omega
          · have := hb1 r e; omega
          · have h3 : node.offset + node.length ≤ r.offset := by
              have := chain_offsets hcpost r (by simp [hpost, e]); omega
            exact ⟨by omega, by omega⟩
        · intro r hr hrr
          have h3 : node.offset + node.length ≤ r.offset := by
            have := chain_offsets hcpost r (by simp [hpost, hrr]); omega
          omega
      · rename_i hln
        have htl : tail = none := by cases tail <;> simp_all
        have hhn : head = none := by cases head <;> simp_all
        subst htl hhn
        simp only [Pieces.insertOpt] at hd hmem
        split at hd
        · rename_i next hnext
          cases hd
          simp only at hq
          have hnm := List.mem_of_find?_eq_some hnext
          have hnlt : node.offset < next.offset := by
            have := List.find?_some hnext; simpa using this
          have hnrest : next ∈ rest := by
            rcases List.mem_append.1 hnm with h | h
            · have := hb1 next h; omega
            · exact h
          have hnge : node.offset + node.length ≤ next.offset := by
            have := chain_offsets hcpost next (by simp [hpost, hnrest]); omega
          have := hcase (fun p => next.offset ≤ p.offset) _ hmem ?_ ?_ q hq hqj
          · rcases this with h | h | h
            · exact Or.inl h
            · exact Or.inr (Or.inl h)
            · exact Or.inr (Or.inr (Or.inl h))
          · intro r hr hle
            exact ⟨by omega, by omega⟩
          · intro r hr hrr
            -- `next` is the first of `rest`
            cases hre : rest with
            | nil => rw [hre] at hrr; cases hrr
            | cons r0 rs =>
              have hpc := hcpost
              rw [hpost, chain_append, hre] at hpc
              have hr0 : r0.offset = node.offset + node.length + total mid := hpc.2.1
              have hfind : (pre ++ rest).find? (fun q => decide (node.offset < q.offset)) = some r0 := by
                rw [List.find?_append]
                have : pre.find? (fun q => decide (node.offset < q.offset)) = none := by
                  simp only [List.find?_eq_none, decide_eq_true_eq]
                  intro q hq; have := hb1 q hq; omega
                rw [this, Option.none_or, hre, List.find?_cons]
                have : node.offset < r0.offset := by omega
                simp [this]
              rw [hfind] at hnext
              cases hnext
              have := chain_offsets hpc.2 r (by rw [← hre]; exact hrr)
              omega
        · split at hd
          · cases hd
            rename_i hno _
            simp only at hq
            rcases List.mem_append.1 hq with h | h
            · have := hpre q h
              right; left; rw [← hqj]; exact this
            · have := hrestgt q h
              have hn' := List.find?_eq_none.1 hno q hq
              simp only [decide_eq_true_eq] at hn'
              omega
          · cases hd

/-- All pieces, current and remembered, start at character boundaries of their text. -/
structure TextOk (t : PieceTable) : Prop where
  pieces : t.BoundaryPieces t.pieces
  undos : ∀ ps ∈ t.undos, t.BoundaryPieces ps
  redos : ∀ ps ∈ t.redos, t.BoundaryPieces ps

theorem repack_boundary {t : PieceTable} {ps : Pieces} (hch : Chain t.original t.added 0 ps)
    (h : t.BoundaryPieces ps) : t.BoundaryPieces ps.repack := by
  obtain ⟨_, hc⟩ := repack_chain hch
  unfold BoundaryPieces
  rw [hc]
  refine ⟨h.1, fun p hp => ?_⟩
  obtain ⟨q, hq, e⟩ := repack_starts p hp
  rw [← e]; exact h.2 q hq

theorem action_TextOk {t : PieceTable} (hw : t.WF) (h : t.TextOk) (a : Action) : (t.action a).TextOk := by
  unfold action
  split
  · exact h
  · split
    · have hr := repack_boundary hw.pieces h.pieces
      refine ⟨hr, ?_, ?_⟩
      · intro ps hps
        rcases List.mem_cons.1 hps with rfl | hps
        · exact hr
        · exact h.undos ps hps
      · intro ps hps; cases hps
    · exact h

theorem boundaryPieces_extend {t : PieceTable} {ps : Pieces} {x : Bytes}
    (hch : Chain t.original t.added 0 ps) (h : t.BoundaryPieces ps) {t' : PieceTable}
    (ho : t'.original = t.original) (ha : t'.added = t.added ++ x) : t'.BoundaryPieces ps := by
  unfold BoundaryPieces at *
  rw [ho, ha, contentOf_extend x hch]; exact h

theorem TextOk.isText {t : PieceTable} (h : t.TextOk) : IsText t.content := h.pieces.1

theorem TextOk.startsAt {t : PieceTable} (h : t.TextOk) {j : Nat} (hj : t.StartsAt j) : IsBoundary t.content j := by
  obtain ⟨p, hp, rfl⟩ := hj; exact h.pieces.2 p hp

theorem insert_TextOk {t : PieceTable} (hw : t.WF) (h : t.TextOk) {x : Bytes} (hx : x ≠ []) (hxt : IsText x)
    {k : Nat} (hk : IsBoundary t.content k) : (t.insert k x).TextOk := by
  obtain ⟨heff, hu, hr, _, ho, ha⟩ := insert_eq hw hx k
  have hw' := action_WF hw .insert
  have h' := action_TextOk hw h .insert
  have hc := action_content hw .insert
  have hstarts : ∀ j, (t.insert k x).StartsAt j → IsBoundary (splice t.content k x) j := by
    intro j hj
    unfold insert at hj
    simp only at hj
    split at hj
    · rename_i node hnode
      have hlt : k < 0 + total (t.action .insert).pieces := by
        rcases Nat.lt_or_ge k (0 + total (t.action .insert).pieces) with hh | hh
        · exact hh
        · rw [getNode_none hw'.pieces hh] at hnode; cases hnode
      obtain ⟨pre, p, post, hps, hget, hcc, _⟩ := getNode_some hw'.pieces (Nat.zero_le k) hlt
      rw [hnode] at hget
      cases hget
      rw [contains_iff] at hcc
      have hch := hw'.pieces
      rw [hps] at hch
      obtain ⟨hb1, hb2, hoff, hpl, hpb, hcpre, hcpost⟩ := chain_before hch
      have hkl : k ≤ t.content.length := by
        rw [← hc, content, chain_content_length hw'.pieces]; omega
      have hstart : ∀ q ∈ (t.action .insert).pieces, IsBoundary t.content q.offset := by
        intro q hq; rw [← hc]; exact h'.pieces.2 q hq
      rcases startsAt_insertAt hj with ⟨rfl, _⟩ | rfl | rfl | ⟨q, hq, hle, rfl⟩ | ⟨q, hq, hlt', rfl⟩
      · exact boundary_splice_before hk hxt (hstart node (by simp [hps])) hkl (by omega)
      · exact boundary_splice_before hk hxt hk hkl (Nat.le_refl _)
      · exact boundary_splice_after hk hxt hk hkl (Nat.le_refl _)
      · exact boundary_splice_before hk hxt (hstart q hq) hkl (by omega)
      · refine boundary_splice_after hk hxt (hstart q hq) hkl ?_
        rw [hps] at hq
        simp only [List.mem_append, List.mem_cons] at hq
        rcases hq with hq | rfl | hq
        · have := hb1 q hq; omega
        · omega
        · have := hb2 q hq; omega
    · rename_i hno
      have hge : t.content.length ≤ k := by
        rcases Nat.lt_or_ge k t.content.length with hlt | hge
        · rw [← hc, content, chain_content_length hw'.pieces] at hlt
          obtain ⟨_, _, _, _, e, _⟩ := getNode_some hw'.pieces (Nat.zero_le k) (by omega : k < 0 + total (t.action .insert).pieces)
          rw [hno] at e; cases e
        · exact hge
      have hsp : splice t.content k x = splice t.content t.content.length x := by
        unfold splice
        rw [List.take_of_length_le hge, List.drop_eq_nil_of_le hge]; simp
      have hend : IsBoundary t.content t.content.length :=
        isBoundary_of_take h.isText (by rw [List.take_length]; exact h.isText)
      rw [hsp]
      simp only [append, action_idem, appendCore] at hj
      obtain ⟨q, hq, rfl⟩ := hj
      rcases mem_pieces_insert.1 hq with rfl | hq
      · simp only
        rw [chain_last hw'.pieces]
        have e : total (t.action .insert).pieces = t.content.length := by
          rw [← hc, content, chain_content_length hw'.pieces]
        rw [e]
        exact boundary_splice_before hend hxt hend (Nat.le_refl _) (Nat.le_refl _)
      · have hb := h'.pieces.2 q hq
        have hle : q.offset ≤ t.content.length := by
          have := chain_offsets hw'.pieces q hq
          rw [← hc, content, chain_content_length hw'.pieces]; omega
        have hb' : IsBoundary t.content q.offset := by rw [← hc]; exact hb
        exact boundary_splice_before hend hxt hb' (Nat.le_refl _) hle
  refine ⟨⟨?_, ?_⟩, ?_, ?_⟩
  · have := heff.content; unfold content at this; rw [this]; exact isText_splice hk hxt
  · intro p hp
    have := heff.content; unfold content at this; rw [this]
    exact hstarts p.offset ⟨p, hp, rfl⟩
  · intro ps hps; rw [hu] at hps
    exact boundaryPieces_extend (t := t.action .insert) (hw'.undos ps hps) (h'.undos ps hps)
      (by rw [ho, action_original]) (by rw [ha, action_added])
  · intro ps hps; rw [hr] at hps
    exact boundaryPieces_extend (t := t.action .insert) (hw'.redos ps hps) (h'.redos ps hps)
      (by rw [ho, action_original]) (by rw [ha, action_added])

theorem append_eq_insert {t : PieceTable} (hw : t.WF) (x : Bytes) : t.append x = t.insert t.content.length x := by
  have hw' := action_WF hw .insert
  have hc := action_content hw .insert
  unfold insert
  simp only
  rw [getNode_none hw'.pieces (by rw [← hc, content, chain_content_length hw'.pieces]; omega)]
  simp only [append, action_idem]

theorem delete_TextOk {h : StaleHandle} (hf : h.follows = true) {t t' : PieceTable} (hw : t.WF) (ht : t.TextOk)
    {k n : Nat} (hk : IsBoundary t.content k) (hn : IsBoundary t.content (k + n))
    (hd : t.delete h k n = .ok t') : t'.TextOk := by
  have hw' := action_WF hw .delete
  have h' := action_TextOk hw ht .delete
  have hc := action_content hw .delete
  rcases delete_eq hf hw k n with ⟨t'', e1, heff, hu, hr, _, ho, ha⟩ | ⟨e1, _⟩ | ⟨e1, _⟩
  · rw [hd] at e1
    cases e1
    have hcontent := heff.content
    have hstarts : ∀ j, t'.StartsAt j → IsBoundary (cut t.content k n) j := by
      intro j hj
      have hst := startsAt_deleteCore hf hw' hd hj
      rw [hc] at hst
      have hS : ∀ i, (t.action .delete).StartsAt i → IsBoundary t.content i := by
        intro i hi; have := h'.startsAt hi; rwa [hc] at this
      rcases Nat.lt_or_ge t.content.length k with hlt | hkl
      · -- nothing deleted
        have hcut : cut t.content k n = t.content := by
          unfold cut
          rw [List.take_of_length_le (by omega), List.drop_eq_nil_of_le (by omega)]; simp
        rw [hcut]
        rcases hst with rfl | ⟨_, h2⟩ | ⟨i, h1, rfl, h3⟩ | ⟨_, h2⟩
        · exact hk
        · exact hS j h2
        · obtain ⟨p, hp, e⟩ := h3
          have := chain_offsets hw'.pieces p hp
          have e2 : total (t.action .delete).pieces = t.content.length := by
            rw [← hc, content, chain_content_length hw'.pieces]
          omega
        · exact hS j h2
      · rcases hst with rfl | ⟨h1, h2⟩ | ⟨i, h1, rfl, h3⟩ | ⟨h1, h2⟩
        · exact boundary_cut_before hk hn hk hkl (Nat.le_refl _)
        · exact boundary_cut_before hk hn (hS j h2) hkl h1
        · exact boundary_cut_after hk hn (hS i h3) hkl h1
        · refine boundary_cut_before hk hn (hS j h2) hkl ?_
          obtain ⟨p, hp, e⟩ := h2
          have := chain_offsets hw'.pieces p hp
          have e2 : total (t.action .delete).pieces = t.content.length := by
            rw [← hc, content, chain_content_length hw'.pieces]
          omega
    have hbp : ∀ ps, (t.action .delete).BoundaryPieces ps → t'.BoundaryPieces ps := by
      intro ps hps; unfold BoundaryPieces at *; rw [ho, ha]; rwa [action_original, action_added] at hps
    refine ⟨⟨?_, ?_⟩, ?_, ?_⟩
    · unfold content at hcontent; rw [hcontent]; exact isText_cut hk hn
    · intro p hp
      have hs := hstarts p.offset ⟨p, hp, rfl⟩
      unfold content at hcontent; rw [hcontent]; exact hs
    · intro ps hps; rw [hu] at hps; exact hbp ps (h'.undos ps hps)
    · intro ps hps; rw [hr] at hps; exact hbp ps (h'.redos ps hps)
  · rw [hd] at e1; cases e1
  · rw [hd] at e1; cases e1

end PieceTable
end Ced

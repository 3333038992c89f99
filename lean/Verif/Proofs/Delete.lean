import Verif.Proofs.Edit

/-! Auxiliary lemmas: effect of delete on pieces and content. -/

namespace Ced
open Spec

theorem valuesFrom_split {o a : Bytes} {pre post : Pieces} {p : Piece} (h : Chain o a 0 (pre ++ p :: post)) :
    Pieces.valuesFrom (pre ++ p :: post) p.offset = p :: post := by
  have hb1 := (PieceTable.chain_before h).1
  unfold Pieces.valuesFrom
  clear h
  induction pre with
  | nil => simp
  | cons q qs ih =>
    have := hb1 q (by simp)
    simp only [List.cons_append, List.dropWhile_cons, decide_eq_true_eq, this, if_true]
    exact ih (fun r hr => hb1 r (by simp [hr]))

/-- Splitting a chain at the first piece at or after `e`. -/
theorem takeWhile_split {o a : Bytes} {off : Nat} {ps : Pieces} (h : Chain o a off ps) (e : Nat) :
    ∃ mid rest, ps = mid ++ rest ∧ ps.takeWhile (·.offset < e) = mid ∧ (∀ q ∈ mid, q.offset < e) ∧
      (∀ q ∈ rest, e ≤ q.offset) := by
  induction ps generalizing off with
  | nil => exact ⟨[], [], rfl, rfl, by simp, by simp⟩
  | cons p ps ih =>
    by_cases hp : p.offset < e
    · obtain ⟨_, _, _, h4⟩ := h
      obtain ⟨mid, rest, e1, e2, e3, e4⟩ := ih h4
      refine ⟨p :: mid, rest, by simp [e1], ?_, ?_, e4⟩
      · simp only [List.takeWhile_cons, decide_eq_true_eq, hp, if_true, e2]
      · intro q hq; rcases List.mem_cons.1 hq with rfl | hq
        · exact hp
        · exact e3 q hq
    · refine ⟨[], p :: ps, rfl, ?_, by simp, ?_⟩
      · simp [hp]
      · intro q hq
        obtain ⟨h1, h2, h3, h4⟩ := h
        rcases List.mem_cons.1 hq with rfl | hq
        · omega
        · have := chain_offsets h4 q hq; omega

theorem foldl_removeAt {pre mid rest : Pieces} (h1 : ∀ q ∈ pre, ∀ r ∈ mid, q.offset ≠ r.offset)
    (h2 : ∀ q ∈ rest, ∀ r ∈ mid, q.offset ≠ r.offset) :
    mid.foldl (fun ps p => Pieces.removeAt p.offset ps) (pre ++ (mid ++ rest)) = pre ++ rest := by
  have key : ∀ (mid ps : Pieces), mid.foldl (fun ps p => Pieces.removeAt p.offset ps) ps =
      ps.filter (fun q => mid.all (fun r => q.offset ≠ r.offset)) := by
    intro mid
    induction mid with
    | nil => intro ps; exact (filter_true (by simp)).symm
    | cons m ms ih =>
      intro ps
      rw [List.foldl_cons, ih, Pieces.removeAt, List.filter_filter]
      congr 1; funext q; simp [Bool.and_comm]
  rw [key, List.filter_append, List.filter_append]
  have e1 : pre.filter (fun q => mid.all (fun r => q.offset ≠ r.offset)) = pre := by
    apply filter_true; intro q hq; simp; exact fun r hr => h1 q hq r hr
  have e2 : rest.filter (fun q => mid.all (fun r => q.offset ≠ r.offset)) = rest := by
    apply filter_true; intro q hq; simp; exact fun r hr => h2 q hq r hr
  have e3 : mid.filter (fun q => mid.all (fun r => q.offset ≠ r.offset)) = [] := by
    rw [List.filter_eq_nil_iff]; intro q hq; simp; exact ⟨q, hq, rfl⟩
  rw [e1, e2, e3]; rfl

namespace PieceTable

/-- A piece starts at `k`. -/
def StartsAt (t : PieceTable) (k : Nat) : Prop := ∃ p ∈ t.pieces, p.offset = k

/-- The result of `deleteCore` inside the buffer, for the decomposition
`pieces = pre ++ (p :: mid) ++ rest`. -/
theorem deleteCore_inside {h : StaleHandle} (hf : h.follows = true) {t : PieceTable} (hw : t.WF) {k n : Nat}
    (hk : k < t.content.length) (hne : ¬ (k = 0 ∧ n = t.len)) :
    (∃ t', t.deleteCore h k n = .ok t' ∧ Effect t t' (cut t.content k n) ∧
        t'.undos = t.undos ∧ t'.redos = t.redos ∧ t'.lastAction = t.lastAction ∧
        t'.original = t.original ∧ t'.added = t.added) ∨
    (t.deleteCore h k n = .error .index ∧ n = 0 ∧ t.StartsAt k) ∨
    (t.deleteCore h k n = .error .overflow ∧ t.StartsAt k ∧ t.content.length ≤ k + n ∧ h.staleOffset < n) := by
  have hlt : k < 0 + total t.pieces := by
    have := chain_content_length hw.pieces; unfold content at hk; omega
  obtain ⟨pre, p, post, hps, hget, hc, _⟩ := getNode_some hw.pieces (Nat.zero_le k) hlt
  have hch := hw.pieces
  rw [hps] at hch
  obtain ⟨hb1, hb2, hoff, hpl, hpb, hcpre, hcpost⟩ := chain_before hch
  rw [contains_iff] at hc
  have hvf : t.pieces.valuesFrom p.offset = p :: post := by rw [hps]; exact valuesFrom_split hch
  unfold deleteCore
  rw [if_neg hne, hget]
  simp only [hvf]
  by_cases hstart : p.offset < k + n
  case neg =>
    -- empty range at a piece boundary
    right; left
    refine ⟨?_, by omega, p, by simp [hps], by omega⟩
    simp [hstart]
  obtain ⟨mid, rest, hpost, htw, hm1, hm2⟩ := takeWhile_split hcpost (k + n)
  have htaken : (p :: post).takeWhile (fun q => decide (q.offset < k + n)) = p :: mid := by
    simp [hstart, htw]
  rw [htaken]
  -- the last taken piece
  obtain ⟨init, last, hinit⟩ : ∃ init last, p :: mid = init ++ [last] :=
    ⟨(p :: mid).dropLast, (p :: mid).getLast (by simp), (List.dropLast_concat_getLast (by simp)).symm⟩
  have hhead : (p :: mid).head? = some p := rfl
  have hlast : (p :: mid).getLast? = some last := by rw [hinit]; simp
  rw [hhead, hlast]
  simp only
  have hchmid : Chain t.original t.added p.offset (p :: mid) ∧
      Chain t.original t.added (p.offset + total (p :: mid)) rest := by
    rw [hpost, chain_append] at hcpost
    refine ⟨⟨rfl, hpl, hpb, hcpost.1⟩, ?_⟩
    simp only [total_cons, ← Nat.add_assoc]; exact hcpost.2
  obtain ⟨hchm, hchr⟩ := hchmid
  have hchm' := hchm
  rw [hinit, chain_append] at hchm'
  obtain ⟨hchi, hl1, hl2, hl3, _⟩ := hchm'
  have hlmem : last ∈ p :: mid := by rw [hinit]; simp
  have hllt : last.offset < k + n := by
    rcases List.mem_cons.1 hlmem with e | hl
    · rw [e]; exact hstart
    · exact hm1 last hl
  generalize hE : p.offset + total (p :: mid) = E at *
  have hpE : p.offset + p.length ≤ E := by rw [← hE]; simp
  have hlE : last.offset + last.length = E := by
    rw [← hE, hinit, hl1]; simp; omega
  have hrest : ∀ q ∈ rest, E ≤ q.offset := fun q hq => (chain_offsets hchr q hq).1
  -- removal
  have hrem : (p :: mid).foldl (fun ps q => Pieces.removeAt q.offset ps) t.pieces = pre ++ rest := by
    have e : t.pieces = pre ++ ((p :: mid) ++ rest) := by rw [hps, hpost]; simp
    rw [e]
    refine foldl_removeAt ?_ ?_
    · intro q hq r hr
      have := hb1 q hq; have := chain_offsets hchm r hr; omega
    · intro q hq r hr
      have := hrest q hq; have := chain_offsets hchm r hr; omega
  rw [hrem]
  -- contents
  have hprelen : (contentOf t.original t.added pre).length = p.offset := by
    rw [chain_content_length hcpre, hoff]
  have hmidlen : (contentOf t.original t.added (p :: mid)).length = E - p.offset := by
    rw [chain_content_length hchm]; omega
  have hinitlen : (contentOf t.original t.added init).length = last.offset - p.offset := by
    rw [chain_content_length hchi]; omega
  have hcont : t.content = contentOf t.original t.added pre ++ (contentOf t.original t.added (p :: mid) ++
      contentOf t.original t.added rest) := by
    simp [content, hps, hpost]
  have hlen : t.content.length = E + total rest := by
    rw [hcont]; simp only [List.length_append, hprelen, hmidlen, chain_content_length hchr]
    have : p.offset ≤ E := by omega
    omega
  have hplen := pieceBytes_length hpb
  -- head and tail
  have hheadE : (p.truncate k n).1 = if p.offset = k then none else some { p with length := k - p.offset } := by
    unfold Piece.truncate
    simp only
    by_cases e : p.offset = k
    · rw [if_neg (by simp [e]), if_pos e]
    · rw [if_pos ⟨contains_iff.2 hc, e⟩, if_neg e]
  have htailE : (last.truncate k n).2 = if k + n < E then
      some { last with offset := k, start := last.start + (k + n - last.offset), length := E - (k + n) } else none := by
    unfold Piece.truncate
    simp only
    by_cases e : k + n < E
    · rw [if_pos (contains_iff.2 ⟨by omega, by omega⟩), if_pos e]
      congr 2 <;> omega
    · rw [if_neg (by rw [contains_iff]; omega), if_neg e]
  rw [hheadE, htailE]
  -- content of the head and of the tail
  have hhc : pieceBytes t.original t.added { p with length := k - p.offset } =
      (contentOf t.original t.added (p :: mid)).take (k - p.offset) := by
    rw [contentOf_cons, List.take_append_of_le_length (by omega)]
    simp only [pieceBytes, List.take_take]
    congr 1; omega
  have htc : k + n < E → pieceBytes t.original t.added
      { last with offset := k, start := last.start + (k + n - last.offset), length := E - (k + n) } =
      (contentOf t.original t.added (p :: mid)).drop (k + n - p.offset) := by
    intro hlt
    have hlo := chain_offsets hchm last hlmem
    rw [hinit, contentOf_append, List.drop_append, hinitlen,
      List.drop_eq_nil_of_le (by omega), List.nil_append]
    simp only [contentOf_cons, contentOf_nil, List.append_nil, pieceBytes, List.drop_take, List.drop_drop]
    congr 1
    · omega
    · congr 1; omega
  have htc0 : E ≤ k + n → (contentOf t.original t.added (p :: mid)).drop (k + n - p.offset) = [] := by
    intro hle; exact List.drop_eq_nil_of_le (by omega)
  -- the specified content
  have hcut : cut t.content k n = contentOf t.original t.added pre ++
      ((contentOf t.original t.added (p :: mid)).take (k - p.offset) ++
      ((contentOf t.original t.added (p :: mid)).drop (k + n - p.offset) ++
       (contentOf t.original t.added rest).drop (k + n - E))) := by
    unfold cut
    rw [hcont, List.take_append, List.drop_append, List.take_append, List.drop_append, hprelen, hmidlen]
    have e1 : List.take k (contentOf t.original t.added pre) = contentOf t.original t.added pre :=
      List.take_of_length_le (by omega)
    have e2 : List.drop (k + n) (contentOf t.original t.added pre) = [] :=
      List.drop_eq_nil_of_le (by omega)
    have e3 : k - p.offset - (E - p.offset) = 0 := by omega
    have e4 : k + n - p.offset - (E - p.offset) = k + n - E := by omega
    rw [e1, e2, e3, e4]
    simp
  have hrestE : rest ≠ [] → k + n ≤ E := by
    intro hr
    cases hre : rest with
    | nil => exact absurd hre hr
    | cons r rs =>
      have h1 := hm2 r (by simp [hre])
      rw [hre] at hchr
      have := hchr.1
      omega
  have hrd : (contentOf t.original t.added rest).drop (k + n - E) = contentOf t.original t.added rest := by
    by_cases hr : rest = []
    · simp [hr]
    · have := hrestE hr
      rw [show k + n - E = 0 by omega]; rfl
  rw [hrd] at hcut
  have hdown : n ≤ E ∨ rest = [] := by
    by_cases hr : rest = []
    · exact Or.inr hr
    · left; have := hrestE hr; omega
  have hchrd : Chain t.original t.added (E - n) (rest.map (Piece.down n)) := by
    rcases hdown with h1 | h1
    · exact chain_down h1 hchr
    · rw [h1]; trivial
  have hklen : k ≤ t.content.length := by omega
  -- finishing a successful case
  have fin : ∀ (ps : Pieces), Chain t.original t.added 0 ps → contentOf t.original t.added ps = cut t.content k n →
      Effect t { t with pieces := ps, newlines := deleteNewlines t.newlines k n } (cut t.content k n) := by
    intro ps h1 h2
    refine ⟨⟨h1, hw.undos, hw.redos⟩, h2, ?_⟩
    intro hnl
    unfold NewlinesOk
    simp only [content, h2]
    rw [hnl, newlines_cut hklen]
    rfl
  by_cases hko : p.offset = k
  · -- no head
    rw [if_pos hko]
    by_cases hkE : k + n < E
    · -- tail
      rw [if_pos hkE]
      left
      simp only [Option.some_or, Pieces.insertOpt]
      refine ⟨_, rfl, ?_, rfl, rfl, rfl, rfl, rfl⟩
      rw [pieces_insert_split (by intro q hq; have := hb1 q hq; simp only; omega)
        (by intro q hq; have := hrest q hq; simp only; omega)]
      have hsd := shiftDown_split
        (pre := pre ++ [{ last with offset := k, start := last.start + (k + n - last.offset), length := E - (k + n) }])
        (post := rest) (off := k) (v := n)
        (by intro q hq; simp at hq; rcases hq with hq | rfl
            · have := hb1 q hq; omega
            · simp)
        (by intro q hq; have := hrest q hq; omega)
      simp only [List.append_assoc, List.cons_append, List.nil_append] at hsd
      rw [hsd]
      apply fin
      · rw [chain_append]
        refine ⟨hcpre, ?_, by simp only; omega, ?_, ?_⟩
        · simp only; omega
        · simp only
          have := hl3; omega
        · simp only
          have e : 0 + total pre + (E - (k + n)) = E - n := by omega
          rw [e]; exact hchrd
      · rw [hcut]
        have e1 : k - p.offset = 0 := by omega
        simp only [contentOf_append, contentOf_cons, contentOf_down, e1]
        rw [htc hkE]
        simp
    · -- neither
      rw [if_neg hkE]
      simp only [Option.none_or, Pieces.insertOpt]
      have htc1 := htc0 (by omega)
      cases hre : rest with
      | cons r rs =>
        left
        have hrne : rest ≠ [] := by simp [hre]
        have hEk := hrestE hrne
        have hro : r.offset = E := by rw [hre] at hchr; exact hchr.1
        have hfind : (pre ++ r :: rs).find? (fun q => decide (p.offset < q.offset)) = some r := by
          rw [List.find?_append]
          have : pre.find? (fun q => decide (p.offset < q.offset)) = none := by
            simp only [List.find?_eq_none, decide_eq_true_eq]
            intro q hq; have := hb1 q hq; omega
          rw [this, Option.none_or, List.find?_cons]
          simp only [hro]
          have : p.offset < E := by omega
          simp [this]
        rw [hfind]
        simp only [hf, if_true]
        refine ⟨_, rfl, ?_, rfl, rfl, rfl, rfl, rfl⟩
        have hmap : (pre ++ r :: rs).map (fun q => if r.offset ≤ q.offset then
            { q with offset := q.offset - n } else q) = pre ++ rest.map (Piece.down n) := by
          rw [List.map_append, ← hre,
            map_if_false (fun q hq => by have := hb1 q hq; omega),
            map_if_true (fun q hq => by have := hrest q hq; omega)]
          rfl
        rw [hmap]
        apply fin
        · rw [chain_append]
          refine ⟨hcpre, ?_⟩
          have e : 0 + total pre = E - n := by omega
          rw [e]; exact hchrd
        · rw [hcut, htc1]
          have e1 : k - p.offset = 0 := by omega
          simp only [contentOf_append, contentOf_down, e1]
          simp
      | nil =>
        have hfind : (pre ++ ([] : Pieces)).find? (fun q => decide (p.offset < q.offset)) = none := by
          simp only [List.append_nil, List.find?_eq_none, decide_eq_true_eq]
          intro q hq; have := hb1 q hq; omega
        rw [hfind]
        simp only
        by_cases hst : n ≤ h.staleOffset
        · left
          rw [if_pos hst]
          refine ⟨_, rfl, ?_, rfl, rfl, rfl, rfl, rfl⟩
          apply fin
          · rw [List.append_nil]; exact hcpre
          · rw [hcut, htc1, hre]
            have e1 : k - p.offset = 0 := by omega
            rw [e1]; simp
        · right; right
          rw [if_neg hst]
          refine ⟨rfl, ⟨p, by simp [hps], hko⟩, ?_, by omega⟩
          rw [hlen, hre]; simp; omega
  · -- head
    rw [if_neg hko]
    left
    by_cases hkE : k + n < E
    · rw [if_pos hkE]
      simp only [Option.some_or, Pieces.insertOpt]
      refine ⟨_, rfl, ?_, rfl, rfl, rfl, rfl, rfl⟩
      rw [pieces_insert_split (p := { p with length := k - p.offset })
        (by intro q hq; have := hb1 q hq; simp only; omega)
        (by intro q hq; have := hrest q hq; simp only; omega)]
      have hi := pieces_insert_split (pre := pre ++ [{ p with length := k - p.offset }]) (post := rest)
        (p := { last with offset := k, start := last.start + (k + n - last.offset), length := E - (k + n) })
        (by intro q hq; simp at hq; rcases hq with hq | rfl
            · have := hb1 q hq; simp only; omega
            · simp only; omega)
        (by intro q hq; have := hrest q hq; simp only; omega)
      simp only [List.append_assoc, List.cons_append, List.nil_append] at hi
      rw [hi]
      have hsd := shiftDown_split
        (pre := pre ++ [{ p with length := k - p.offset },
          { last with offset := k, start := last.start + (k + n - last.offset), length := E - (k + n) }])
        (post := rest) (off := k) (v := n)
        (by intro q hq; simp at hq; rcases hq with hq | rfl | rfl
            · have := hb1 q hq; omega
            · simp only; omega
            · simp)
        (by intro q hq; have := hrest q hq; omega)
      simp only [List.append_assoc, List.cons_append, List.nil_append] at hsd
      rw [hsd]
      apply fin
      · rw [chain_append]
        refine ⟨hcpre, by simp only; omega, by simp only; omega, by simp only; omega, ?_, by simp only; omega,
          by simp only; omega, ?_⟩
        · simp only; omega
        · simp only
          have e : 0 + total pre + (k - p.offset) + (E - (k + n)) = E - n := by omega
          rw [e]; exact hchrd
      · rw [hcut]
        simp only [contentOf_append, contentOf_cons (o := t.original) (a := t.added)
          { p with length := k - p.offset }, contentOf_cons (o := t.original) (a := t.added)
          { last with offset := k, start := last.start + (k + n - last.offset), length := E - (k + n) },
          contentOf_down]
        rw [htc hkE, hhc]
    · rw [if_neg hkE]
      simp only [Option.none_or, Pieces.insertOpt]
      have htc1 := htc0 (by omega)
      refine ⟨_, rfl, ?_, rfl, rfl, rfl, rfl, rfl⟩
      rw [pieces_insert_split (p := { p with length := k - p.offset })
        (by intro q hq; have := hb1 q hq; simp only; omega)
        (by intro q hq; have := hrest q hq; simp only; omega)]
      have hsd := shiftDown_split
        (pre := pre ++ [{ p with length := k - p.offset }])
        (post := rest) (off := p.offset) (v := n)
        (by intro q hq; simp at hq; rcases hq with hq | rfl
            · have := hb1 q hq; omega
            · simp)
        (by intro q hq; have := hrest q hq; omega)
      simp only [List.append_assoc, List.cons_append, List.nil_append] at hsd
      rw [hsd]
      apply fin
      · rw [chain_append]
        refine ⟨hcpre, by simp only; omega, by simp only; omega, by simp only; omega, ?_⟩
        by_cases hr : rest = []
        · rw [hr]; trivial
        · have := hrestE hr
          have e : 0 + total pre + (k - p.offset) = E - n := by omega
          simp only
          rw [e]; exact hchrd
      · rw [hcut, htc1]
        simp only [contentOf_append, contentOf_cons (o := t.original) (a := t.added)
          { p with length := k - p.offset }, contentOf_down]
        rw [hhc]
        simp

theorem deleteCore_eq {h : StaleHandle} (hf : h.follows = true) {t : PieceTable} (hw : t.WF) (k n : Nat) :
    (∃ t', t.deleteCore h k n = .ok t' ∧ Effect t t' (cut t.content k n) ∧
        t'.undos = t.undos ∧ t'.redos = t.redos ∧ t'.lastAction = t.lastAction ∧
        t'.original = t.original ∧ t'.added = t.added) ∨
    (t.deleteCore h k n = .error .index ∧ n = 0 ∧ k < t.content.length ∧ t.StartsAt k) ∨
    (t.deleteCore h k n = .error .overflow ∧ t.StartsAt k ∧ k < t.content.length ∧
      t.content.length ≤ k + n ∧ h.staleOffset < n) := by
  have hlen := hw.len_eq
  by_cases hall : k = 0 ∧ n = t.len
  · left
    obtain ⟨rfl, rfl⟩ := hall
    refine ⟨{ t with pieces := [], newlines := [] }, by simp [deleteCore], ?_, rfl, rfl, rfl, rfl, rfl⟩
    have hcut : cut t.content 0 t.len = [] := by simp [cut, hlen]
    rw [hcut]
    exact ⟨⟨trivial, hw.undos, hw.redos⟩, rfl, fun _ => by simp [NewlinesOk, content, newlinePositions]⟩
  · rcases Nat.lt_or_ge k t.content.length with hk | hk
    · rcases deleteCore_inside hf hw hk hall with h1 | ⟨h1, h2, h3⟩ | ⟨h1, h2, h3, h4⟩
      · exact Or.inl h1
      · exact Or.inr (Or.inl ⟨h1, h2, hk, h3⟩)
      · exact Or.inr (Or.inr ⟨h1, h2, hk, h3, h4⟩)
    · left
      have hno : t.pieces.getNode k = none := by
        refine getNode_none hw.pieces ?_
        have := chain_content_length hw.pieces; unfold content at hk; omega
      refine ⟨t, by simp [deleteCore, hall, hno], ?_, rfl, rfl, rfl, rfl, rfl⟩
      have hcut : cut t.content k n = t.content := by
        unfold cut
        rw [List.take_of_length_le hk, List.drop_eq_nil_of_le (by omega)]; simp
      rw [hcut]
      exact ⟨hw, rfl, id⟩

theorem repack_starts {ps : Pieces} : ∀ p ∈ ps.repack, ∃ q ∈ ps, q.offset = p.offset := by
  induction ps with
  | nil => intro p hp; simp [Pieces.repack] at hp
  | cons q qs ih =>
    intro p hp
    simp only [Pieces.repack] at hp
    split at hp
    · simp at hp; subst hp; exact ⟨_, List.mem_cons_self, rfl⟩
    · rename_i r rs hr
      split at hp
      · rcases List.mem_cons.1 hp with rfl | hp
        · exact ⟨q, by simp, rfl⟩
        · obtain ⟨s, hs, e⟩ := ih p (by rw [hr]; simp [hp])
          exact ⟨s, by simp [hs], e⟩
      · rcases List.mem_cons.1 hp with rfl | hp
        · exact ⟨_, by simp, rfl⟩
        · obtain ⟨s, hs, e⟩ := ih p (by rw [hr]; exact hp)
          exact ⟨s, by simp [hs], e⟩

theorem startsAt_action {t : PieceTable} {a : Action} {k : Nat} (h : (t.action a).StartsAt k) : t.StartsAt k := by
  obtain ⟨p, hp, e⟩ := h
  unfold action at hp
  split at hp
  · exact ⟨p, hp, e⟩
  · split at hp
    · obtain ⟨q, hq, e'⟩ := repack_starts p hp
      exact ⟨q, hq, by omega⟩
    · exact ⟨p, hp, e⟩

theorem delete_eq {h : StaleHandle} (hf : h.follows = true) {t : PieceTable} (hw : t.WF) (k n : Nat) :
    (∃ t', t.delete h k n = .ok t' ∧ Effect t t' (cut t.content k n) ∧
        t'.undos = (t.action .delete).undos ∧ t'.redos = (t.action .delete).redos ∧
        t'.lastAction = (t.action .delete).lastAction ∧
        t'.original = t.original ∧ t'.added = t.added) ∨
    (t.delete h k n = .error .index ∧ n = 0 ∧ k < t.content.length ∧ t.StartsAt k) ∨
    (t.delete h k n = .error .overflow ∧ t.StartsAt k ∧ k < t.content.length ∧
      t.content.length ≤ k + n ∧ h.staleOffset < n) := by
  have hw' := action_WF hw .delete
  have hc := action_content hw .delete
  have hnl : t.NewlinesOk → (t.action .delete).NewlinesOk := by
    intro hh; unfold NewlinesOk; rw [action_newlines, hc]; exact hh
  have := deleteCore_eq hf hw' k n
  rw [hc] at this
  rcases this with ⟨t', h1, h2, h3, h4, h5, h6, h7⟩ | ⟨h1, h2, h3, h4⟩ | ⟨h1, h2, h3⟩
  · left
    refine ⟨t', h1, ⟨h2.wf, h2.content, fun hh => h2.newlines (hnl hh)⟩, h3, h4, h5, ?_, ?_⟩
    · rw [h6, action_original]
    · rw [h7, action_added]
  · exact Or.inr (Or.inl ⟨h1, h2, h3, startsAt_action h4⟩)
  · exact Or.inr (Or.inr ⟨h1, startsAt_action h2, h3⟩)

end PieceTable
end Ced

import Verif.Proofs.Coords

/-! # The model's conversions on the decomposition of the text into lines -/

namespace Ced
open Spec

theorem clusterStarts_length (gs : List Bytes) (off : Nat) : (clusterStarts off gs).length = gs.length := by
  induction gs generalizing off with
  | nil => rfl
  | cons g gs ih => simp [clusterStarts, ih]

theorem clusterStarts_get (gs : List Bytes) (off k : Nat) (hk : k < gs.length) :
    (clusterStarts off gs)[k]? = some (off + (gs.take k).flatten.length) := by
  induction gs generalizing off k with
  | nil => simp at hk
  | cons g gs ih =>
    cases k with
    | zero => simp [clusterStarts]
    | succ k =>
      simp only [clusterStarts, List.getElem?_cons_succ]
      rw [ih _ _ (by simpa using hk)]
      simp [Nat.add_assoc]

/-- with one byte per cluster, the starts are the positions -/
theorem clusterStarts_bytes (l : Bytes) (off : Nat) :
    clusterStarts off (l.map fun b => [b]) = List.range' off l.length := by
  induction l generalizing off with
  | nil => rfl
  | cons b l ih => simp [clusterStarts, ih, List.range'_succ]

theorem filter_lt_range' (n d off : Nat) : ((List.range' off n).filter (· < off + d)).length = min d n := by
  induction n generalizing d off with
  | zero => simp
  | succ n ih =>
    rw [List.range'_succ, List.filter_cons]
    cases d with
    | zero =>
      simp only [Nat.add_zero, Nat.lt_irrefl, decide_false, Bool.false_eq_true, if_false, Nat.zero_min]
      rw [List.length_eq_zero_iff, List.filter_eq_nil_iff]
      intro a ha
      simp only [List.mem_range'_1] at ha
      simp; omega
    | succ d =>
      have e : off + (d + 1) = off + 1 + d := by omega
      rw [if_pos (by simp), List.length_cons, e, ih]
      omega

/-- clusters starting before the `c`-th one: there are `c` of them -/
theorem clusterStarts_filter {gs : List Bytes} (hne : ∀ g ∈ gs, g ≠ []) (off c d : Nat) (hc : c < gs.length)
    (hd : d = off + (gs.take c).flatten.length + 1) :
    ((clusterStarts off gs).filter (· < d)).length = c + 1 := by
  induction gs generalizing off c with
  | nil => simp at hc
  | cons g gs ih =>
    have hg : 0 < g.length := List.length_pos_iff.2 (hne g (by simp))
    cases c with
    | zero =>
      simp only [List.take_zero, List.flatten_nil, List.length_nil, Nat.add_zero] at hd
      simp only [clusterStarts]
      rw [List.filter_cons_of_pos (by simp; omega)]
      have : (clusterStarts (off + g.length) gs).filter (· < d) = [] := by
        rw [List.filter_eq_nil_iff]
        intro a ha
        obtain ⟨k, hk⟩ := List.getElem?_of_mem ha
        have hk' : k < gs.length := by
          rcases Nat.lt_or_ge k gs.length with h | h
          · exact h
          · rw [List.getElem?_eq_none (by rw [clusterStarts_length]; exact h)] at hk; cases hk
        rw [clusterStarts_get _ _ _ hk'] at hk
        simp at hk
        simp; omega
      rw [this]; rfl
    | succ c =>
      simp only [List.take_succ_cons, List.flatten_cons, List.length_append] at hd
      simp only [clusterStarts]
      rw [List.filter_cons_of_pos (by simp; omega)]
      have := ih (fun g h => hne g (List.mem_cons_of_mem _ h)) (off + g.length) c (by simpa using hc) (by omega)
      simp only [List.length_cons]
      rw [this]

theorem filter_eq_take_of_lt {as bs : List Nat} {o : Nat} (h1 : ∀ a ∈ as, a < o) (h2 : ∀ b ∈ bs, o ≤ b) :
    (as ++ bs).filter (· < o) = as := by
  rw [List.filter_append]
  have e1 : as.filter (· < o) = as := List.filter_eq_self.2 (by intro a ha; simpa using h1 a ha)
  have e2 : bs.filter (· < o) = [] := by
    rw [List.filter_eq_nil_iff]; intro b hb; have := h2 b hb; simp; omega
  rw [e1, e2, List.append_nil]

namespace PieceTable
variable {t : PieceTable} {pre line suf : Bytes} {n : Nat} {seg : Segmentation}

/-- newlines before the line -/
theorem mem_pre_lt {v : Nat} (hv : v ∈ newlinePositions pre) : v < pre.length := by
  obtain ⟨i, hi⟩ := List.getElem?_of_mem hv
  exact newline_lt hi

theorem lineBytes_at (hw : t.WF) (hn : t.NewlinesOk) (h : LineAt t.content n pre line suf) :
    t.lineBytes n = .ok (some line) := by
  rw [lineBytes_eq hw hn h.ne_nil, if_neg (by have := h.pos; omega), h.get]

theorem lineLength_at (hw : t.WF) (hn : t.NewlinesOk) (h : LineAt t.content n pre line suf) :
    t.lineLength n = .ok line.length := lineLength_eq hw hn h.pos h.get

/-- the offset of the newline that ends a line -/
theorem offsetToCoord_newline (hw : t.WF) (hn : t.NewlinesOk) (h : LineAt t.content n pre line suf)
    (hs : suf ≠ []) : t.offsetToCoord seg (pre.length + line.length) = .ok (some ⟨n, line.length + 1⟩) := by
  have hn' : t.newlines = newlinePositions t.content := hn
  unfold offsetToCoord
  split
  · rename_i h0
    have hp : pre = [] := List.length_eq_zero_iff.1 (by omega)
    have hl : line = [] := List.length_eq_zero_iff.1 (by omega)
    rw [h.pre_eq_nil.1 hp, hl]; rfl
  · rename_i h0
    rw [maxOffset_eq hw]
    simp only [except_bind_ok]
    have hlen := h.length
    have hsp := List.length_pos_iff.2 hs
    rw [if_neg (by omega)]
    have hg := h.suf_head hs
    have hf : t.newlines.findIdx? (· == pre.length + line.length) = some (n - 1) := by
      rw [List.findIdx?_eq_some_iff_getElem, hn']
      obtain ⟨hi, e⟩ := List.getElem?_eq_some_iff.1 hg
      refine ⟨hi, by simp [e], ?_⟩
      intro j hj
      have hm := newline_mono hj (List.getElem?_eq_getElem (by omega)) hg
      simp; omega
    rw [hf]
    have hpos := h.pos
    have e : n - 1 + 1 = n := by omega
    simp only [e, lineLength_at hw hn h, except_bind_ok, except_pure]

/-- the offset of a byte inside a line -/
theorem offsetToCoord_inside (hw : t.WF) (hn : t.NewlinesOk) (h : LineAt t.content n pre line suf) {k : Nat}
    (hk : k < line.length) : t.offsetToCoord seg (pre.length + k) =
      .ok (some (if n = 1 then ⟨1, k + 1⟩
        else ⟨n, ((clusterStarts 0 (seg line)).filter (· < k + 1)).length⟩)) := by
  have hn' : t.newlines = newlinePositions t.content := hn
  have hlen := h.length
  unfold offsetToCoord
  split
  · rename_i h0
    have hp : pre = [] := List.length_eq_zero_iff.1 (by omega)
    have hk0 : k = 0 := by omega
    rw [h.pre_eq_nil.1 hp, hk0]; rfl
  · rename_i h0
    rw [maxOffset_eq hw]
    simp only [except_bind_ok]
    rw [if_neg (by omega)]
    have hf : t.newlines.findIdx? (· == pre.length + k) = none := by
      rw [List.findIdx?_eq_none_iff, hn']
      intro v hv
      have := h.mem_suf hv
      simp; omega
    have hpr : t.newlines.filter (· < pre.length + k) = newlinePositions pre := by
      rw [hn', h.newlines]
      refine filter_eq_take_of_lt (fun a ha => ?_) (fun b hb => ?_)
      · have := mem_pre_lt ha; omega
      · simp only [List.mem_map] at hb; obtain ⟨j, _, rfl⟩ := hb; omega
    rw [hf]
    simp only [hpr]
    by_cases h1 : n = 1
    · have hp := h.pre_eq_nil.2 h1
      subst hp
      rw [newlinePositions_nil]
      simp [h1]
    · have hn2 : 1 < n := by have := h.pos; omega
      obtain ⟨g1, g2⟩ := h.pre_last hn2
      have hl : (newlinePositions pre).getLast? = some (pre.length - 1) := by
        rw [List.getLast?_eq_getElem?, h.count]
        rw [h.newlines, List.getElem?_append_left (by rw [h.count]; omega)] at g1
        exact g1
      rw [hl, h.count]
      have e : n - 1 + 1 = n := by omega
      simp only [e, lineBytes_at hw hn h, except_bind_ok, unwrapR]
      rw [subChecked_ok (by omega)]
      simp only [except_bind_ok, except_pure, if_neg h1]
      have e2 : pre.length + k - (pre.length - 1) = k + 1 := by omega
      rw [e2]

theorem offsetToCoord_past (hw : t.WF) {o : Nat} (ho : t.content.length ≤ o) (h0 : 0 < o) :
    t.offsetToCoord seg o = .ok none := by
  unfold offsetToCoord
  rw [if_neg (by omega), maxOffset_eq hw]
  simp only [except_bind_ok]
  rw [if_pos (by omega)]; rfl

/-- columns of an existing line -/
theorem coordToOffset_at (hw : t.WF) (hn : t.NewlinesOk) (hseg : IsSegmentation seg)
    (h : LineAt t.content n pre line suf) {c : Nat} (hc : 1 ≤ c) :
    t.coordToOffset seg ⟨n, c⟩ = .ok (if c ≤ (seg line).length + 1
      then some (pre.length + ((seg line).take (c - 1)).flatten.length) else none) := by
  have hn' : t.newlines = newlinePositions t.content := hn
  unfold coordToOffset
  rw [if_neg (by have := h.pos; simp; omega), lineCount_eq hw hn h.ne_nil]
  simp only [except_bind_ok]
  rw [if_neg (by have := lineAt_le h; omega), lineBytes_at hw hn h]
  simp only [except_bind_ok]
  have hoff : (if 1 < n then (t.newlines[n - 2]?.map (· + 1)).getD 0 else 0) = pre.length := by
    split
    · rename_i h1
      obtain ⟨g1, g2⟩ := h.pre_last h1
      rw [hn', g1]; simp; omega
    · have h1 : n = 1 := by have := h.pos; omega
      rw [h.pre_eq_nil.2 h1]; rfl
  rw [hoff]
  by_cases he : c = (seg line).length + 1
  · rw [if_pos he, if_pos (by omega), he]
    have hfl : ((seg line).take ((seg line).length + 1 - 1)).flatten = line := by
      simpa using hseg.flatten line
    rw [hfl]; rfl
  · rw [if_neg he, subChecked_ok hc]
    simp only [except_bind_ok, except_pure]
    by_cases hlt : c ≤ (seg line).length + 1
    · rw [if_pos hlt, clusterStarts_get _ _ _ (by omega)]
      simp
    · rw [if_neg hlt, List.getElem?_eq_none (by rw [clusterStarts_length]; omega)]; rfl

theorem coordToOffset_noline (hw : t.WF) (hn : t.NewlinesOk) (hne : t.content ≠ []) {c : Nat}
    (h : (Spec.lines t.content).length < n) : t.coordToOffset seg ⟨n, c⟩ = .ok none := by
  unfold coordToOffset
  rw [if_neg (by simp; omega), lineCount_eq hw hn hne]
  simp only [except_bind_ok]
  rw [if_pos h]; rfl

end PieceTable
end Ced

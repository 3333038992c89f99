import Verif.Model.Text
import Verif.Proofs.Lines

/-! Auxiliary lemmas: line lengths, longest line, `str::lines`. -/

namespace Ced
open Spec

theorem indexR_some {α} {xs : List α} {i : Nat} {v : α} (h : xs[i]? = some v) : indexR xs i = .ok v := by
  simp [indexR, h]

theorem splitNewlines_eq (acc s : Bytes) :
    splitNewlines acc s = match lines s with
      | [] => if acc = [] then [] else [acc]
      | l :: ls => (acc ++ l) :: ls := by
  induction s generalizing acc with
  | nil => simp [splitNewlines, lines]
  | cons b bs ih =>
    simp only [splitNewlines, lines]
    by_cases hb : b = NL
    · rw [if_pos hb, if_pos hb, ih]
      simp only [List.append_nil]
      cases lines bs with
      | nil => simp
      | cons l ls => simp
    · rw [if_neg hb, if_neg hb, ih]
      cases lines bs with
      | nil => simp
      | cons l ls => simp

theorem splitNewlines_nil (s : Bytes) : splitNewlines [] s = lines s := by
  rw [splitNewlines_eq]
  cases lines s <;> simp

theorem lines_mem {s : Bytes} {l : Bytes} (hl : l ∈ lines s) {b : UInt8} (hb : b ∈ l) : b ∈ s := by
  induction s generalizing l with
  | nil => simp [lines] at hl
  | cons c cs ih =>
    simp only [lines] at hl
    split at hl
    · rcases List.mem_cons.1 hl with rfl | hl
      · simp at hb
      · exact List.mem_cons_of_mem _ (ih hl hb)
    · split at hl
      · simp only [List.mem_singleton] at hl
        subst hl
        simp only [List.mem_singleton] at hb
        simp [hb]
      · rename_i l0 ls he
        rcases List.mem_cons.1 hl with rfl | hl
        · rcases List.mem_cons.1 hb with rfl | hb
          · simp
          · exact List.mem_cons_of_mem _ (ih (by rw [he]; simp) hb)
        · exact List.mem_cons_of_mem _ (ih (by rw [he]; simp [hl]) hb)

theorem strLines_eq {s : Bytes} (h : 13 ∉ s) : strLines s = lines s := by
  have hs : ∀ l ∈ lines s, stripCR l = l := by
    intro l hl
    unfold stripCR
    rw [if_neg]
    intro h13
    exact h (lines_mem hl (List.mem_of_getLast? h13))
  unfold strLines
  rw [splitNewlines_nil]
  simp only
  split
  · rw [List.map_congr_left (g := id) hs]; simp
  · rw [List.map_congr_left (g := id) (fun l hl => hs l (List.dropLast_subset _ hl))]
    simp only [List.map_id]
    cases hl : lines s with
    | nil => rfl
    | cons a as =>
      have hne : a :: as ≠ [] := by simp
      rw [List.getLast?_eq_some_getLast hne]
      exact List.dropLast_concat_getLast hne

theorem strLines_clean (s : Bytes) : strLines s = cleanLines s := by
  unfold strLines cleanLines
  rw [splitNewlines_nil]
  simp only
  apply List.ext_getElem?
  intro i
  rw [List.getElem?_mapIdx]
  by_cases hn : s.getLast? = some NL
  · rw [if_pos hn]
    simp only [hn, or_true, true_and, List.getElem?_map]
    rfl
  · rw [if_neg hn]
    simp only [hn, or_false]
    rcases Nat.lt_trichotomy (i + 1) (lines s).length with h | h | h
    · rw [List.getElem?_append_left (by simp; omega), List.getElem?_map, List.getElem?_dropLast, if_pos (by omega)]
      simp only [h, true_and]
      rfl
    · rw [List.getElem?_append_right (by simp; omega)]
      have h0 : i - ((lines s).dropLast.map stripCR).length = 0 := by simp; omega
      rw [h0]
      have : (lines s).getLast? = (lines s)[i]? := by rw [List.getLast?_eq_getElem?]; congr 1; omega
      rw [this]
      have hlt : ¬ i + 1 < (lines s).length := by omega
      simp only [hlt, false_and, if_false]
      cases (lines s)[i]? <;> rfl
    · rw [List.getElem?_append_right (by simp; omega)]
      have h1 : (lines s)[i]? = none := List.getElem?_eq_none (by omega)
      rw [h1]
      refine List.getElem?_eq_none ?_
      cases hg : (lines s).getLast? with
      | none => simp
      | some l =>
        have : (lines s).length ≤ i := by omega
        simp only [Option.toList_some, List.length_singleton, List.length_map, List.length_dropLast]
        have h0 : 0 < (lines s).length := by
          cases hl : lines s with
          | nil => rw [hl] at hg; cases hg
          | cons => simp
        omega

theorem cleanLines_eq {s : Bytes} (h : 13 ∉ s) : cleanLines s = lines s := by
  rw [← strLines_clean, strLines_eq h]

theorem cleanLines_length (s : Bytes) : (cleanLines s).length = (lines s).length := by simp [cleanLines]

/-- facts about the newline positions `nls` of `s` -/
theorem newlines_line_bounds (s : Bytes) (i : Nat) {v w : Nat}
    (h1 : (newlinePositions s)[i]? = some v) (h2 : (newlinePositions s)[i + 1]? = some w) : v < w :=
  newline_mono (by omega) h1 h2

namespace PieceTable

theorem lineLength_eq {t : PieceTable} (hw : t.WF) (hn : t.NewlinesOk) {n : Nat} {l : Bytes} (h1 : 1 ≤ n)
    (hl : (Spec.lines t.content)[n - 1]? = some l) : t.lineLength n = .ok l.length := by
  have hn' : t.newlines = newlinePositions t.content := hn
  have hlt : n - 1 < (Spec.lines t.content).length := by
    rcases Nat.lt_or_ge (n - 1) (Spec.lines t.content).length with h | h
    · exact h
    · rw [List.getElem?_eq_none h] at hl; cases hl
  rw [lines_get _ _ hlt] at hl
  simp only [Option.some.injEq] at hl
  have hlen := hw.len_eq
  have hcount := lines_length t.content
  unfold lineLength
  rw [hn', hlen]
  generalize hnl : newlinePositions t.content = nls at *
  have hbound : ∀ i v : Nat, nls[i]? = some v → v < t.content.length := by
    intro i v hv; rw [← hnl] at hv; exact newline_lt hv
  have hmono : ∀ i v w : Nat, nls[i]? = some v → nls[i + 1]? = some w → v < w := by
    intro i v w hv hw; rw [← hnl] at hv hw; exact newlines_line_bounds _ _ hv hw
  have hll : l.length = min (lineStop nls t.content.length (n - 1)) t.content.length - lineStart nls (n - 1) := by
    rw [← hl]; simp [slice]
  cases nls with
  | nil =>
    simp only
    have : n - 1 = 0 := by
      simp only [List.length_nil] at hcount
      split at hcount <;> omega
    rw [hll, this]
    simp [lineStart, lineStop]
  | cons nl0 rest =>
    simp only
    by_cases hn1 : n = 1
    · rw [if_pos hn1, hll, hn1]
      have := hbound 0 nl0 (by simp)
      simp [lineStart, lineStop]
      omega
    · rw [if_neg hn1, subChecked_ok h1]
      simp only [except_bind_ok]
      have hn2 : n - 1 = (n - 2) + 1 := by omega
      have hle : n - 1 ≤ (nl0 :: rest).length := by split at hcount <;> omega
      have hy : ∃ y, (nl0 :: rest)[n - 2]? = some y := ⟨_, List.getElem?_eq_getElem (by omega)⟩
      obtain ⟨y, hy⟩ := hy
      have hyb := hbound _ _ hy
      by_cases hin : n - 1 < (nl0 :: rest).length
      · rw [if_pos hin]
        obtain ⟨x, hx⟩ : ∃ x, (nl0 :: rest)[n - 1]? = some x := ⟨_, List.getElem?_eq_getElem hin⟩
        have hxb := hbound _ _ hx
        have hlt' := hmono (n - 2) y x hy (by rw [← hn2]; exact hx)
        rw [indexR_some hx, subChecked_ok (by omega : 2 ≤ n)]
        simp only [except_bind_ok]
        rw [indexR_some hy]
        simp only [except_bind_ok]
        rw [subChecked_ok (by omega)]
        simp only [except_bind_ok]
        rw [subChecked_ok (by omega), hll]
        have e1 : lineStart (nl0 :: rest) (n - 1) = y + 1 := by rw [hn2]; simp [lineStart, hy]
        have e2 : lineStop (nl0 :: rest) t.content.length (n - 1) = x := by simp [lineStop, hx]
        rw [e1, e2]
        congr 1
        omega
      · rw [if_neg hin]
        have heq : n - 1 = (nl0 :: rest).length := by omega
        rw [if_pos heq, subChecked_ok (by omega : 2 ≤ n)]
        simp only [except_bind_ok]
        rw [indexR_some hy]
        simp only [except_bind_ok]
        rw [subChecked_ok (by omega)]
        simp only [except_bind_ok]
        rw [subChecked_ok (by omega), hll]
        have e1 : lineStart (nl0 :: rest) (n - 1) = y + 1 := by rw [hn2]; simp [lineStart, hy]
        have e2 : lineStop (nl0 :: rest) t.content.length (n - 1) = t.content.length := by
          simp only [lineStop]
          rw [List.getElem?_eq_none (by omega)]; rfl
        rw [e1, e2]
        congr 1
        omega

/-- past the last line, when the text ends with a newline -/
theorem lineLength_past {t : PieceTable} (hw : t.WF) (hn : t.NewlinesOk) (hnl : t.content.getLast? = some NL) :
    t.lineLength (t.newlines.length + 1) = .ok 0 := by
  have hn' : t.newlines = newlinePositions t.content := hn
  have hlen := hw.len_eq
  unfold lineLength
  rw [hlen]
  have hne : t.content ≠ [] := by intro h; rw [h] at hnl; cases hnl
  have hmem : t.content.length - 1 ∈ t.newlines := by
    rw [hn', mem_newlinePositions]
    rwa [List.getLast?_eq_getElem?] at hnl
  cases hnls : t.newlines with
  | nil => rw [hnls] at hmem; cases hmem
  | cons nl0 rest =>
    simp only
    have hlast : ∃ y, (nl0 :: rest)[rest.length]? = some y ∧ y = t.content.length - 1 := by
      obtain ⟨k, hk⟩ := List.mem_iff_getElem?.1 hmem
      rw [hnls] at hk
      have hk' : k < (nl0 :: rest).length := by
        rcases Nat.lt_or_ge k (nl0 :: rest).length with h | h
        · exact h
        · rw [List.getElem?_eq_none h] at hk; cases hk
      rcases Nat.lt_or_ge k rest.length with h | h
      · obtain ⟨y, hy⟩ : ∃ y, (nl0 :: rest)[rest.length]? = some y := ⟨_, List.getElem?_eq_getElem (by simp)⟩
        have h3 := hk; have h4 := hy
        rw [← hnls, hn'] at h3 h4
        have h1 := newline_mono h h3 h4
        have h2 := newline_lt h4
        omega
      · have : k = rest.length := by simp at hk'; omega
        rw [this] at hk
        exact ⟨_, hk, rfl⟩
    obtain ⟨y, hy, hye⟩ := hlast
    have hpos := List.length_pos_iff.2 hne
    by_cases hr : rest.length + 1 + 1 = 1
    · omega
    · simp only [List.length_cons]
      rw [if_neg hr, subChecked_ok (by omega)]
      simp only [except_bind_ok]
      rw [if_neg (by omega), if_pos (by omega), subChecked_ok (by omega)]
      simp only [except_bind_ok]
      rw [show rest.length + 1 + 1 - 2 = rest.length by omega, indexR_some hy]
      simp only [except_bind_ok]
      rw [subChecked_ok (by omega)]
      simp only [except_bind_ok]
      rw [subChecked_ok (by omega)]
      congr 1
      omega

/-- The state of the search for the longest line after the first `k` lines. -/
def BestOf (ls : List Bytes) (k : Nat) (r : Nat × Nat) : Prop :=
  (∀ i l, i < k → ls[i]? = some l → l.length ≤ r.2) ∧
  (r = (0, 0) ∨ (1 ≤ r.1 ∧ r.1 ≤ k ∧ 0 < r.2 ∧ (ls[r.1 - 1]?).map List.length = some r.2 ∧
    ∀ i l, i < r.1 - 1 → ls[i]? = some l → l.length < r.2))

theorem longestLine_eq {t : PieceTable} (hw : t.WF) (hn : t.NewlinesOk) (hne : t.content ≠ []) :
    ∃ r, t.longestLine = .ok r ∧ BestOf (Spec.lines t.content) (Spec.lines t.content).length r := by
  have hn' : t.newlines = newlinePositions t.content := hn
  have hcount := lines_length t.content
  have hlast : t.content.getLast? ≠ none := by simpa using hne
  -- every length asked for
  have hlen : ∀ i, 1 ≤ i → i ≤ t.newlines.length + 1 →
      t.lineLength i = .ok (((Spec.lines t.content)[i - 1]?).map List.length |>.getD 0) := by
    intro i h1 h2
    cases hl : (Spec.lines t.content)[i - 1]? with
    | some l => rw [lineLength_eq hw hn h1 hl]; rfl
    | none =>
      have : (Spec.lines t.content).length ≤ i - 1 := List.getElem?_eq_none_iff.1 hl
      rw [hn'] at h2
      have hnl : t.content.getLast? = some NL := by
        split at hcount
        · rename_i h; rcases h with h | h
          · contradiction
          · exact h
        · omega
      rw [if_pos (Or.inr hnl)] at hcount
      have hi : i = t.newlines.length + 1 := by rw [hn']; omega
      rw [hi, lineLength_past hw hn hnl]; rfl
  have key : ∀ (m a : Nat) (r0 : Nat × Nat), 1 ≤ a → a + m ≤ t.newlines.length + 2 →
      BestOf (Spec.lines t.content) (a - 1) r0 →
      ∃ r, (List.range' a m).foldlM (fun longest i => do
        let len ← t.lineLength i
        return if longest.2 < len then (i, len) else longest) r0 = .ok r ∧
        BestOf (Spec.lines t.content) (a + m - 1) r := by
    intro m
    induction m with
    | zero => intro a r0 _ _ hb; exact ⟨r0, rfl, hb⟩
    | succ m ih =>
      intro a r0 ha hle hb
      simp only [List.range'_succ, List.foldlM_cons]
      rw [hlen a ha (by omega)]
      simp only [except_bind_ok, except_pure]
      have hb' : BestOf (Spec.lines t.content) (a + 1 - 1)
          (if r0.2 < (((Spec.lines t.content)[a - 1]?).map List.length |>.getD 0)
            then (a, ((Spec.lines t.content)[a - 1]?).map List.length |>.getD 0) else r0) := by
        obtain ⟨b1, b2⟩ := hb
        split
        · rename_i hlt
          cases hl : (Spec.lines t.content)[a - 1]? with
          | none => rw [hl] at hlt; simp at hlt
          | some l =>
            rw [hl] at hlt
            simp only [Option.map_some, Option.getD_some] at hlt ⊢
            refine ⟨?_, Or.inr ⟨ha, by simp, by simp; omega, by simp [hl], ?_⟩⟩
            · intro i l' hi hl'
              by_cases hia : i = a - 1
              · subst hia; rw [hl] at hl'; cases hl'; simp
              · have := b1 i l' (by omega) hl'; simp; omega
            · intro i l' hi hl'
              have := b1 i l' hi hl'; simp; omega
        · rename_i hge
          refine ⟨?_, ?_⟩
          · intro i l' hi hl'
            by_cases hia : i = a - 1
            · subst hia; rw [hl'] at hge; simp at hge; exact hge
            · exact b1 i l' (by omega) hl'
          · rcases b2 with h | ⟨h1, h2, h3, h4, h5⟩
            · exact Or.inl h
            · exact Or.inr ⟨h1, by omega, h3, h4, h5⟩
      obtain ⟨r, e, hr⟩ := ih (a + 1) _ (by omega) (by omega) hb'
      exact ⟨r, e, by rwa [show a + 1 + m - 1 = a + (m + 1) - 1 by omega] at hr⟩
  obtain ⟨r, e, hr⟩ := key (t.newlines.length + 1) 1 (0, 0) (by omega) (by omega)
    ⟨fun i l h => by omega, Or.inl rfl⟩
  refine ⟨r, e, ?_⟩
  have hge : (Spec.lines t.content).length ≤ t.newlines.length + 1 := by rw [hn']; split at hcount <;> omega
  obtain ⟨h1, h2⟩ := hr
  refine ⟨fun i l hi hl => h1 i l (by omega) hl, ?_⟩
  rcases h2 with h | ⟨h3, h4, h5, h6, h7⟩
  · exact Or.inl h
  · refine Or.inr ⟨h3, ?_, h5, h6, h7⟩
    cases hl : (Spec.lines t.content)[r.1 - 1]? with
    | none => rw [hl] at h6; simp at h6
    | some l =>
      have : r.1 - 1 < (Spec.lines t.content).length := by
        rcases Nat.lt_or_ge (r.1 - 1) (Spec.lines t.content).length with h | h
        · exact h
        · rw [List.getElem?_eq_none h] at hl; cases hl
      omega

end PieceTable
end Ced

import Verif.Proofs.CoordsModel

/-! # Coordinates and motions on ASCII texts -/

namespace Ced
open Spec

theorem LineAt_ascii {s pre line suf : Bytes} {n : Nat} (h : LineAt s n pre line suf) (ha : Ascii s) : Ascii line := by
  intro b hb; apply ha; rw [h.split]; simp [hb]

theorem seg_line {seg : Segmentation} (hseg : IsSegmentation seg) {s pre line suf : Bytes} {n : Nat}
    (h : LineAt s n pre line suf) (ha : Ascii s) : seg line = line.map fun b => [b] :=
  hseg.ascii line (LineAt_ascii h ha) (Or.inl h.noNewline)

theorem flatten_singletons (l : Bytes) : (l.map fun b => [b]).flatten = l := by
  induction l with
  | nil => rfl
  | cons b l ih => simp [ih]

theorem take_flatten {l : Bytes} {k : Nat} : ((l.map fun b => [b]).take k).flatten = l.take k := by
  rw [← List.map_take, flatten_singletons]

theorem at_unique {s : Bytes} {o n c n' c' : Nat} (h : At s o n c) (h' : At s o n' c') : n = n' ∧ c = c' := by
  obtain ⟨pre, line, suf, hl, h1, h2, h3⟩ := h
  obtain ⟨pre', line', suf', hl', h1', h2', h3'⟩ := h'
  have step : ∀ {pre line suf pre' line' suf' : Bytes} {n n' : Nat}, LineAt s n pre line suf → LineAt s n' pre' line' suf' →
      n < n' → pre.length + line.length < pre'.length := by
    intro pre line suf pre' line' suf' n n' hl hl' hlt
    obtain ⟨g1, g2⟩ := hl'.pre_last (by have := hl.pos; omega)
    have hsuf : suf ≠ [] := by
      intro e
      have hc := hl.newlines
      rw [e, newlinePositions_nil, List.map_nil, List.append_nil] at hc
      have hlen : (newlinePositions s).length = n - 1 := by rw [hc]; exact hl.count
      rw [List.getElem?_eq_none (by have := hl.pos; omega)] at g1
      cases g1
    have g3 := hl.suf_head hsuf
    rcases Nat.lt_or_ge (n - 1) (n' - 2) with hh | hh
    · have := newline_mono hh g3 g1; omega
    · have e : n - 1 = n' - 2 := by have := hl.pos; omega
      rw [e, g1] at g3
      simp only [Option.some.injEq] at g3
      omega
  have hn : n = n' := by
    rcases Nat.lt_trichotomy n n' with h | h | h
    · have := step hl hl' h; omega
    · exact h
    · have := step hl' hl h; omega
  subst hn
  obtain ⟨e1, e2, e3⟩ := hl.unique hl'
  refine ⟨rfl, ?_⟩
  rw [e1] at h3'
  omega

theorem at_exists {s : Bytes} {o : Nat} (h : o < s.length) : ∃ n c, At s o n c := by
  obtain ⟨n, pre, line, suf, hl, h1, h2, _⟩ := exists_lineAt h
  exact ⟨n, o - pre.length + 1, pre, line, suf, hl, by omega, by omega, by omega⟩

theorem at_le {s : Bytes} {o n c : Nat} (h : At s o n c) : o ≤ s.length := by
  obtain ⟨pre, line, suf, hl, h1, h2, h3⟩ := h
  have := hl.length; omega

/-- in a text ending with a newline, every line is ended by a newline -/
theorem suf_ne_nil {s pre line suf : Bytes} {n : Nat} (he : EndsWithNewline s) (h : LineAt s n pre line suf) :
    suf ≠ [] := by
  intro e
  subst e
  have hx := h.exist
  rw [List.append_nil] at hx
  unfold EndsWithNewline at he
  rw [h.split, List.append_nil, List.getLast?_append] at he
  cases hl : line.getLast? with
  | none => simp at hl; exact hx hl
  | some b =>
    rw [hl] at he
    simp at he
    subst he
    exact h.noNewline (List.mem_of_getLast? hl)

theorem at_lt {s : Bytes} {o n c : Nat} (he : EndsWithNewline s) (h : At s o n c) : o < s.length := by
  obtain ⟨pre, line, suf, hl, h1, h2, h3⟩ := h
  have := hl.length
  have := List.length_pos_iff.2 (suf_ne_nil he hl)
  omega

namespace PieceTable
variable {t : PieceTable} {seg : Segmentation} {o n c : Nat}

theorem offsetToCoord_ascii (hw : t.WF) (hn : t.NewlinesOk) (hseg : IsSegmentation seg) (ha : Ascii t.content)
    (ho : o < t.content.length) (h : At t.content o n c) : t.offsetToCoord seg o = .ok (some ⟨n, c⟩) := by
  obtain ⟨pre, line, suf, hl, h1, h2, h3⟩ := h
  rw [h3]
  by_cases hc : c = line.length + 1
  · have hsuf : suf ≠ [] := by
      intro e; have := hl.length; rw [e] at this; simp at this; omega
    rw [hc]
    exact offsetToCoord_newline hw hn hl hsuf
  · rw [offsetToCoord_inside hw hn hl (by omega)]
    by_cases h1' : n = 1
    · rw [if_pos h1', h1']
      have : c - 1 + 1 = c := by omega
      rw [this]
    · rw [if_neg h1', seg_line hseg hl ha, clusterStarts_bytes]
      have := filter_lt_range' line.length (c - 1 + 1) 0
      rw [Nat.zero_add] at this
      rw [this]
      congr 3
      omega

theorem coordToOffset_ascii (hw : t.WF) (hn : t.NewlinesOk) (hseg : IsSegmentation seg) (ha : Ascii t.content)
    (h : At t.content o n c) : t.coordToOffset seg ⟨n, c⟩ = .ok (some o) := by
  obtain ⟨pre, line, suf, hl, h1, h2, h3⟩ := h
  rw [coordToOffset_at hw hn hseg hl h1, seg_line hseg hl ha]
  simp only [List.length_map]
  rw [if_pos h2, take_flatten, h3]
  simp only [List.length_take]
  congr 3
  omega

theorem charAtOffset_ascii (hw : t.WF) (hn : t.NewlinesOk) (hseg : IsSegmentation seg) (ha : Ascii t.content)
    (ho : o < t.content.length) : t.charAtOffset seg o = .ok (some [t.content[o]]) := by
  have hn' : t.newlines = newlinePositions t.content := hn
  obtain ⟨n, pre, line, suf, hl, h1, h2, _⟩ := exists_lineAt ho
  have hlen := hl.length
  -- the newlines from `o` on
  have hfil : (t.newlines.filter (o ≤ ·)).head?.getD t.len = pre.length + line.length := by
    have e1 : (newlinePositions pre).filter (o ≤ ·) = [] := by
      rw [List.filter_eq_nil_iff]
      intro v hv
      have := mem_pre_lt hv; simp; omega
    rw [hn', hl.newlines, List.filter_append, e1, List.nil_append]
    by_cases hs : suf = []
    · subst hs
      rw [newlinePositions_nil]
      simp only [List.map_nil, List.filter_nil, List.head?_nil, Option.getD_none, hw.len_eq, hlen]
      simp
    · obtain ⟨b, bs, rfl⟩ := List.exists_cons_of_ne_nil hs
      have hb : b = NL := by have := hl.stops; simpa using this
      rw [newlinePositions_cons, if_pos hb]
      simp only [List.singleton_append, List.map_cons, Nat.add_zero]
      rw [List.filter_cons_of_pos (by simpa using h2)]
      rfl
  unfold charAtOffset
  simp only [hfil]
  rw [subChecked_ok h2]
  simp only [except_bind_ok]
  rw [range_eq hw (by omega), if_pos ho]
  simp only [except_bind_ok, except_pure, Option.bind_some]
  by_cases hend : o = pre.length + line.length
  · -- a newline
    have hsuf : suf ≠ [] := by intro e; rw [e] at hlen; simp at hlen; omega
    obtain ⟨b, bs, rfl⟩ := List.exists_cons_of_ne_nil hsuf
    have hb : b = NL := by have := hl.stops; simpa using this
    have hg : t.content[o]? = some b := by
      rw [hl.split, List.getElem?_append_right (by simp; omega)]
      simp [hend]
    have hg' : t.content[o] = b := by
      rw [List.getElem?_eq_getElem ho] at hg; simpa using hg
    have hsl : slice t.content o (o + max (pre.length + line.length - o) 1) = [b] := by
      have e : o + max (pre.length + line.length - o) 1 = o + 1 := by omega
      rw [e]
      unfold slice
      rw [List.take_add_one, hg, List.drop_append_of_le_length (by rw [List.length_take]; omega),
        List.drop_eq_nil_of_le (by rw [List.length_take]; omega)]
      rfl
    rw [hsl, hg', hb, hseg.ascii [NL] (by intro b hb; simp at hb; subst hb; decide) (Or.inr rfl)]
    rfl
  · have e : o + max (pre.length + line.length - o) 1 = pre.length + line.length := by omega
    rw [e]
    have hsl : slice t.content o (pre.length + line.length) = line.drop (o - pre.length) := by
      unfold slice
      have : t.content.take (pre.length + line.length) = pre ++ line := by
        rw [hl.split]; exact List.take_left' (by simp)
      rw [this, List.drop_append]
      simp [h1]
    have hg : t.content[o] = line[o - pre.length]'(by omega) := by
      have : t.content[o]? = line[o - pre.length]? := by
        rw [hl.split, List.append_assoc, List.getElem?_append_right h1, List.getElem?_append_left (by omega)]
      rw [List.getElem?_eq_getElem ho, List.getElem?_eq_getElem (by omega)] at this
      simpa using this
    rw [hsl, hseg.ascii _ (by intro b hb; exact LineAt_ascii hl ha b (List.mem_of_mem_drop hb))
      (Or.inl (fun h => hl.noNewline (List.mem_of_mem_drop h)))]
    rw [hg, List.drop_eq_getElem_cons (by omega)]
    rfl

theorem charAt_ascii (hw : t.WF) (hn : t.NewlinesOk) (hseg : IsSegmentation seg) (ha : Ascii t.content)
    (ho : o < t.content.length) (h : At t.content o n c) : t.charAt seg ⟨n, c⟩ = .ok (some [t.content[o]]) := by
  unfold charAt
  rw [coordToOffset_ascii hw hn hseg ha h]
  simp only [except_bind_ok]
  rw [charAtOffset_ascii hw hn hseg ha ho]
  rfl

theorem charAtOffset_past (hw : t.WF) (hn : t.NewlinesOk) (ho : o = t.content.length) :
    t.charAtOffset seg o = .ok none := by
  have hn' : t.newlines = newlinePositions t.content := hn
  unfold charAtOffset
  have hfil : t.newlines.filter (o ≤ ·) = [] := by
    rw [List.filter_eq_nil_iff, hn']
    intro v hv
    obtain ⟨i, hi⟩ := List.getElem?_of_mem hv
    have := newline_lt hi
    simp; omega
  simp only [hfil, List.head?_nil, Option.getD_none, hw.len_eq]
  rw [subChecked_ok (by omega)]
  simp only [except_bind_ok]
  rw [range_eq hw (by omega), if_neg (by omega)]
  rfl

theorem maxCoord_ascii (hw : t.WF) (hn : t.NewlinesOk) (hseg : IsSegmentation seg) (ha : Ascii t.content)
    (hne : t.content ≠ []) (h : At t.content (t.content.length - 1) n c) : t.maxCoord seg = .ok ⟨n, c⟩ := by
  have := List.length_pos_iff.2 hne
  unfold maxCoord
  rw [maxOffset_eq hw]
  simp only [except_bind_ok]
  rw [offsetToCoord_ascii hw hn hseg ha (by omega) h]
  rfl

end PieceTable

namespace Navigator
open PieceTable
variable {t : PieceTable} {seg : Segmentation} {o n c : Nat}

theorem pos_ascii (hw : t.WF) (hn : t.NewlinesOk) (hseg : IsSegmentation seg) (ha : Ascii t.content)
    (he : EndsWithNewline t.content) {c tc : Nat} (h : Lands t.content n tc o) :
    ∃ p : Position, Navigator.pos seg t ⟨⟨n, c⟩, tc⟩ = .ok p ∧ p.offset = o := by
  obtain ⟨pre, line, suf, hl, h1, h2⟩ := h
  unfold Navigator.pos
  simp only [lineBytes_at hw hn hl, except_bind_ok]
  rw [seg_line hseg hl ha]
  simp only [List.length_map]
  have hat : At t.content o n (min (line.length + 1) tc) := ⟨pre, line, suf, hl, by omega, by omega, by omega⟩
  rw [coordToOffset_ascii hw hn hseg ha hat]
  simp only [except_bind_ok]
  rw [charAt_ascii hw hn hseg ha (at_lt he hat) hat]
  exact ⟨_, rfl, rfl⟩

theorem lands_of_at {s : Bytes} (h : At s o n c) : Lands s n c o := by
  obtain ⟨pre, line, suf, hl, h1, h2, h3⟩ := h
  exact ⟨pre, line, suf, hl, h1, by omega⟩

theorem at_of_lands {s : Bytes} {tc : Nat} (h : Lands s n tc o) : ∃ c, At s o n c := by
  obtain ⟨pre, line, suf, hl, h1, h2⟩ := h
  exact ⟨min tc (line.length + 1), pre, line, suf, hl, by omega, by omega, h2⟩

theorem navigate_ascii (hw : t.WF) (hn : t.NewlinesOk) (hseg : IsSegmentation seg) (ha : Ascii t.content)
    (h : At t.content o n c) : Navigator.navigate seg t (some ⟨n, c⟩) = .ok (some ⟨⟨n, c⟩, c⟩) := by
  unfold Navigator.navigate fromPosition
  simp only [coordToOffset_ascii hw hn hseg ha h]
  rfl

/-- moving right -/
theorem next_ascii (hw : t.WF) (hn : t.NewlinesOk) (hseg : IsSegmentation seg) (ha : Ascii t.content)
    (h : At t.content o n c) (ho : o + 1 < t.content.length) (tc : Nat) :
    ∃ n' c', At t.content (o + 1) n' c' ∧ Navigator.next seg t ⟨⟨n, c⟩, tc⟩ = .ok ⟨⟨n', c'⟩, c'⟩ := by
  have hne : t.content ≠ [] := by intro e; rw [e] at ho; simp at ho
  obtain ⟨nm, cm, hm⟩ := at_exists (s := t.content) (o := t.content.length - 1) (by omega)
  unfold Navigator.next
  rw [maxCoord_ascii hw hn hseg ha hne hm]
  simp only [except_bind_ok]
  have hneq : ¬ (⟨n, c⟩ : Coords) = ⟨nm, cm⟩ := by
    intro e
    simp only [Coords.mk.injEq] at e
    obtain ⟨rfl, rfl⟩ := e
    have h1 := coordToOffset_ascii (seg := seg) hw hn hseg ha h
    rw [coordToOffset_ascii hw hn hseg ha hm] at h1
    simp at h1
    omega
  rw [if_neg hneq, charAt_ascii hw hn hseg ha (by omega) h]
  simp only [except_bind_ok]
  by_cases hnl : t.content[o]'(by omega) = NL
  · -- the next line
    rw [if_pos (by rw [hnl])]
    refine ⟨n + 1, 1, ?_, rfl⟩
    obtain ⟨pre, line, suf, hl, h1, h2, h3⟩ := h
    have hc : c = line.length + 1 := by
      by_cases hc : c = line.length + 1
      · exact hc
      · exfalso
        have hmem : o ∈ newlinePositions t.content := mem_newlinePositions.2 (by
          rw [List.getElem?_eq_getElem (by omega), hnl])
        have := hl.mem_suf hmem (by omega)
        omega
    have hlen := hl.length
    have hsuf : suf ≠ [] := by intro e; rw [e] at hlen; simp at hlen; omega
    obtain ⟨b, bs, rfl⟩ := List.exists_cons_of_ne_nil hsuf
    have hb : b = NL := by have := hl.stops; simpa using this
    obtain ⟨n2, pre2, line2, suf2, hl2, g1, g2, g3⟩ := exists_lineAt ho
    -- the line starting after this newline
    have hdir : ∃ line2 suf2, LineAt t.content (n + 1) (pre ++ line ++ [b]) line2 suf2 := by
      obtain ⟨n3, pre3, line3, suf3, hl3, k1, k2, k3⟩ := exists_lineAt (s := bs) (o := 0) (by
        rw [List.length_cons] at hlen; omega)
      have hp3 : pre3 = [] := List.length_eq_zero_iff.1 (by omega)
      subst hp3
      have hspl := hl3.split
      refine ⟨line3, suf3, ⟨?_, ?_, Or.inr (by simp [hb]), hl3.noNewline, hl3.stops, hl3.exist⟩⟩
      · conv => lhs; rw [hl.split, hspl]
        simp
      · rw [List.count_append, List.count_append, List.count_eq_zero.2 hl.noNewline, hl.number, hb]
        simp
    obtain ⟨line3, suf3, hl3⟩ := hdir
    exact ⟨_, line3, suf3, hl3, by omega, by omega, by simp; omega⟩
  · rw [if_neg (by simpa using hnl), coordToOffset_ascii hw hn hseg ha h]
    simp only [except_bind_ok, unwrapR]
    obtain ⟨n', c', h'⟩ := at_exists ho
    rw [offsetToCoord_ascii hw hn hseg ha ho h']
    exact ⟨n', c', h', rfl⟩

theorem next_end (hw : t.WF) (hn : t.NewlinesOk) (hseg : IsSegmentation seg) (ha : Ascii t.content)
    (h : At t.content o n c) (ho : o + 1 = t.content.length) (tc : Nat) :
    Navigator.next seg t ⟨⟨n, c⟩, tc⟩ = .ok ⟨⟨n, c⟩, tc⟩ := by
  have hne : t.content ≠ [] := by intro e; rw [e] at ho; simp at ho
  have e : t.content.length - 1 = o := by omega
  unfold Navigator.next
  rw [maxCoord_ascii hw hn hseg ha hne (by rw [e]; exact h)]
  simp

/-- moving left -/
theorem previous_ascii (hw : t.WF) (hn : t.NewlinesOk)
    (h : At t.content o n c) (ho : 0 < o) (tc : Nat) :
    ∃ n' c', At t.content (o - 1) n' c' ∧ Navigator.previous t ⟨⟨n, c⟩, tc⟩ = .ok ⟨⟨n', c'⟩, c'⟩ := by
  obtain ⟨pre, line, suf, hl, h1, h2, h3⟩ := h
  unfold Navigator.previous
  have hb : (⟨n, c⟩ : Coords) ≠ BEGIN := by
    intro e
    simp only [BEGIN, Coords.mk.injEq] at e
    have := hl.pre_eq_nil.2 e.1
    rw [this] at h3; simp at h3; omega
  rw [if_pos hb]
  by_cases hc : n ≠ 1 ∧ c = 1
  · rw [if_pos hc]
    have hpos := hl.pos
    rw [subChecked_ok (by simpa using hpos)]
    simp only [except_bind_ok]
    obtain ⟨pre', line', suf', hl'⟩ := exists_line (s := t.content) (n := n - 1) (by omega) (by have := lineAt_le hl; omega)
    rw [lineLength_at hw hn hl']
    simp only [except_bind_ok, except_pure]
    refine ⟨n - 1, line'.length + 1, ⟨pre', line', suf', hl', by omega, by omega, ?_⟩, rfl⟩
    obtain ⟨g1, g2⟩ := hl.pre_last (by omega)
    have hsuf : suf' ≠ [] := by
      intro e
      have hcn := hl'.newlines
      rw [e, newlinePositions_nil, List.map_nil, List.append_nil] at hcn
      have hlen : (newlinePositions t.content).length = n - 1 - 1 := by rw [hcn]; exact hl'.count
      rw [List.getElem?_eq_none (by omega)] at g1
      cases g1
    have g3 := hl'.suf_head hsuf
    have e : n - 1 - 1 = n - 2 := by omega
    rw [e, g1] at g3
    simp only [Option.some.injEq] at g3
    have := hc.2
    omega
  · rw [if_neg hc]
    have hc1 : c ≠ 1 := by
      intro e
      have hn1 : n = 1 := by
        by_cases hn1 : n = 1
        · exact hn1
        · exact absurd ⟨hn1, e⟩ hc
      exact hb (by rw [hn1, e]; rfl)
    rw [subChecked_ok (by simpa using h1)]
    simp only [except_bind_ok, except_pure]
    exact ⟨n, c - 1, ⟨pre, line, suf, hl, by omega, by omega, by omega⟩, rfl⟩

end Navigator
end Ced

import Verif.Props.GlassFaces

/-! # C109: menus with matches on the terminal -/

namespace Ced.Props
open Spec Tui Glass

variable {T : Type} {p : Paint T}

namespace C109

/-- An entry that shows these cells. -/
theorem draw_entry_cells {g : Glass} (hg : Ready g) {i : Nat} {rev : Bool} {s : Str} {l : List Cell}
    (hd : Displays false (if rev then reversedText s else s) l false) (hl : l.length ≤ g.width) (hi : i + 1 < g.height) :
    Ready (g.drawAll [.at 0 (i + 1) rev s, .clearRest]) ∧ (g.drawAll [.at 0 (i + 1) rev s, .clearRest]).width = g.width ∧
    (g.drawAll [.at 0 (i + 1) rev s, .clearRest]).height = g.height ∧
    ∀ y, ∀ x < g.width, (g.drawAll [.at 0 (i + 1) rev s, .clearRest]).cells y x =
      if y = i + 1 then ((l.take (g.width - 1))[x]?).getD .blank else g.cells y x := by
  obtain ⟨i1, i2, i3, i4, i5, i6, i7⟩ := draw_at hg (x := 0) (y := i + 1) hd hg.width (by omega)
  generalize hg1 : g.draw (.at 0 (i + 1) rev s) = g1 at i1 i2 i3 i4 i5 i6 i7
  have e : g.drawAll [.at 0 (i + 1) rev s, .clearRest] = g1.draw .clearRest := by rw [← hg1]; rfl
  rw [e]
  have hmin : min (i + 1) (g.height - 1) = i + 1 := by omega
  rw [hmin] at i5 i7
  have hx1 : g1.x = min l.length (g.width - 1) := by
    have a1 := i4.x
    unfold col at i6
    split at i6
    · rename_i h; have := i4.wrap h; omega
    · omega
  refine ⟨⟨i1.width, i1.height, i1.reading, i1.reversed⟩, i2, i3, fun y x hx => ?_⟩
  show (if y = g1.y ∧ g1.x ≤ x then Cell.blank else g1.cells y x) = _
  rw [i5, hx1, i7]
  by_cases hy : y = i + 1
  · rw [if_pos hy]
    by_cases h1 : min l.length (g.width - 1) ≤ x
    · rw [if_pos ⟨hy, h1⟩, List.getElem?_eq_none (by rw [List.length_take]; omega)]; rfl
    · rw [if_neg (fun h => h1 h.2), if_pos ⟨hy, Nat.zero_le _⟩, List.getElem?_take, if_pos (by omega), Nat.sub_zero,
        List.getElem?_eq_getElem (by omega)]
      rfl
  · rw [if_neg (fun h => hy h.1), if_neg (fun h => hy h.1), if_neg hy]

/-- Entries that show these cells. -/
theorem draw_entries_cells {rows : List Str} {g : Glass} (hg : Ready g) {selected i : Nat} {cells : Nat → List Cell}
    (hs : ∀ k s, rows[k]? = some s →
      Displays false (if decide (i + k = selected) then reversedText s else s) (cells (i + k)) false ∧ (cells (i + k)).length ≤ g.width)
    (hi : i + rows.length < g.height) :
    Ready (g.drawAll (entryDraws selected i rows)) ∧ (g.drawAll (entryDraws selected i rows)).width = g.width ∧
    (g.drawAll (entryDraws selected i rows)).height = g.height ∧
    ∀ y, ∀ x < g.width, (g.drawAll (entryDraws selected i rows)).cells y x =
      if i < y ∧ y ≤ i + rows.length then (((cells (y - 1)).take (g.width - 1))[x]?).getD .blank else g.cells y x := by
  induction rows generalizing g i with
  | nil =>
    refine ⟨hg, rfl, rfl, fun y x _ => ?_⟩
    show g.cells y x = _
    rw [if_neg (by rw [List.length_nil]; omega)]
  | cons s ss ih =>
    rw [List.length_cons] at hi
    obtain ⟨a1, a2⟩ := hs 0 s rfl
    obtain ⟨i1, i2, i3, i4⟩ := draw_entry_cells hg (i := i) a1 a2 (by omega)
    rw [Nat.add_zero] at i1 i2 i3 i4
    generalize hg1 : g.drawAll [.at 0 (i + 1) (decide (i = selected)) s, .clearRest] = g1 at i1 i2 i3 i4
    obtain ⟨j1, j2, j3, j4⟩ := ih i1 (i := i + 1) (fun k t ht => by
      rw [i2, show i + 1 + k = i + (k + 1) by omega]; exact hs (k + 1) t (by rw [List.getElem?_cons_succ]; exact ht)) (by rw [i3]; omega)
    have e : g.drawAll (entryDraws selected i (s :: ss)) = g1.drawAll (entryDraws selected (i + 1) ss) := by
      rw [← hg1]
      unfold entryDraws drawAll
      rw [List.zipIdx_cons, List.flatMap_cons, List.foldl_append]
    rw [e]
    refine ⟨j1, j2.trans i2, j3.trans i3, fun y x hx => ?_⟩
    rw [j4 y x (by rw [i2]; exact hx), i2, i4 y x hx, List.length_cons]
    by_cases h1 : i + 1 < y ∧ y ≤ i + 1 + ss.length
    · rw [if_pos h1, if_pos (by omega)]
    · rw [if_neg h1]
      by_cases h2 : y = i + 1
      · subst h2
        rw [if_pos rfl, if_pos (by omega)]
        rfl
      · rw [if_neg h2, if_neg (by omega)]

/-- What the pieces of an entry show, and the state of reversed video they leave. -/
theorem shows_matches {rev : Bool} {qs : List EntryPart} (h : ∀ q ∈ qs, ∀ c ∈ q.text, OneCell c) :
    ∃ r', Displays rev (qs.flatMap EntryPart.sent) (matchCells rev qs) r' ∧ (rev = false → r' = false) := by
  induction qs generalizing rev with
  | nil => exact ⟨rev, .nil, id⟩
  | cons q qs ih =>
    obtain ⟨r', ih, hr⟩ := ih (rev := rev && !q.matched) fun q hq => h q (List.mem_cons_of_mem _ hq)
    have hq := h q List.mem_cons_self
    refine ⟨r', ?_, fun h => hr (by rw [h]; rfl)⟩
    rw [List.flatMap_cons, matchCells]
    refine shows_append (r1 := rev && !q.matched) ?_ ih
    unfold EntryPart.sent
    cases q.matched with
    | false => simpa using shows_plain rev hq
    | true =>
      have h1 : Displays rev (str!"\x1b[" ++ str!"4" ++ 'm' :: (q.text ++ (str!"\x1b[0m" ++ []))) (q.text.map (⟨·, rev⟩) ++ []) false :=
        .other (by decide) (by decide) (by decide) (by decide) (shows_append (shows_plain rev hq) (.off .nil))
      simpa using h1

theorem look_entry {w : Nat} {e : RemoteEntry T} {rev : Bool} {l : List Cell} {s : Str} (hc : EntryLook p w rev e.text l)
    (h : EntryShown p w e s) : Displays false (if rev then reversedText s else s) l false ∧ l.length ≤ w := by
  have either : ∀ {s : Str} {l : List Cell} {r' : Bool}, Displays rev s l r' → (rev = false → r' = false) →
      Displays false (if rev then reversedText s else s) l false := by
    intro s l r' hd hr
    cases rev with
    | false => rw [hr rfl] at hd; exact hd
    | true =>
      have : Displays false (str!"\x1b[7m" ++ (s ++ (str!"\x1b[0m" ++ []))) (l ++ []) false := .on (shows_append hd (.off .nil))
      simpa [reversedText] using this
  rcases hc with ⟨h1, rfl⟩ | ⟨qs, h1, h2, rfl⟩
  · rw [C74_entry h1.toPlainText h]
    refine ⟨either (shows_plain rev fun c hc => h1.oneCell c (List.mem_of_mem_take hc)) id, ?_⟩
    rw [List.length_map, List.length_take]; omega
  · have hs : s = p.renderMenu e.text := by
      unfold EntryShown at h
      rw [if_pos h2] at h
      exact h
    have hlen : (matchCells rev qs).length ≤ (qs.flatMap EntryPart.sent).length := by
      clear h1 h2 hs either
      induction qs generalizing rev with
      | nil => exact Nat.le_refl _
      | cons q qs ih =>
        have := ih (rev := rev && !q.matched)
        rw [matchCells, List.flatMap_cons, List.length_append, List.length_append, List.length_map]
        have : q.text.length ≤ q.sent.length := by
          unfold EntryPart.sent
          split
          · simp only [List.length_append]; omega
          · exact Nat.le_refl _
        omega
    have hb := length_le_bytes (p.renderMenu e.text)
    rw [h1.renderMenu] at hs h2 hb
    obtain ⟨r', hd, hr⟩ := shows_matches (rev := rev) h1.oneCell
    rw [hs]
    exact ⟨either hd hr, by omega⟩

end C109
open C109

/-- C109: a menu that is drawn, of entries some of which have matches, is what the user reads: its title and what was typed, in reversed
video, on the first row; below, one entry per row, cut one column before the right edge; the other rows are empty.  An entry that is
not highlighted is not in reversed video; the highlighted one is up to the end of its first match. -/
theorem C109_matches {g : Glass} (hg : Ready g) (hh : g.height ≤ 65535) {m : RemoteMenu T}
    (ht : ∀ c ∈ m.title ++ m.search, c.val < 128 ∧ OneCell c)
    (hc : ∀ e ∈ m.entries, ∀ rev, ∃ l, EntryLook p g.width rev e.text l) {ds : List Draw}
    (h : drawMenu p g.width g.height m = .ok ds) :
    Ready (g.drawAll ds) ∧ (g.drawAll ds).width = g.width ∧ (g.drawAll ds).height = g.height ∧
    Reads (g.drawAll ds) 0 ((m.title ++ str!":" ++ m.search ++ List.replicate g.width ' ').take g.width) true ∧
    ∀ i, i + 1 < g.height → match m.entries[i]? with
      | some e => ∃ l, EntryLook p g.width (decide (i = m.selected)) e.text l ∧
          ∀ x < g.width, (g.drawAll ds).cells (i + 1) x = ((l.take (g.width - 1))[x]?).getD .blank
      | none => Reads (g.drawAll ds) (i + 1) [] false := by
  obtain ⟨top, rows, rfl, ⟨n, et⟩, hlen, hf⟩ := C74_drawn hh h
  have hw := hg.width
  have h1 := hg.height
  have htop : ∀ c ∈ top, c.val < 128 ∧ OneCell c := by
    intro c hcs
    rw [et] at hcs
    simp only [List.mem_append, List.mem_replicate] at hcs
    rcases hcs with ((h | h) | h) | ⟨_, h⟩
    · exact ht c (List.mem_append_left _ h)
    · have : c = ':' := by simpa using h
      rw [this]; exact ⟨by decide, by unfold OneCell; decide⟩
    · exact ht c (List.mem_append_right _ h)
    · rw [h]; exact ⟨by decide, by unfold OneCell; decide⟩
  have hl : top.length = g.width := by rw [← byteLen_ascii fun c hcs => (htop c hcs).1]; exact hlen
  have et2 : (m.title ++ str!":" ++ m.search ++ List.replicate g.width ' ').take g.width = top := by
    rw [et] at hl ⊢
    rw [List.length_append, List.length_replicate] at hl
    rw [List.take_append, List.take_of_length_le (by omega), List.take_replicate]
    congr 2
    omega
  have he : Ready g.erase := ⟨hw, hg.height, hg.reading, hg.reversed⟩
  obtain ⟨i1, i2, i3, _, _, _, i7⟩ := draw_at he (x := 0) (y := 0) (rev := true) (s := top)
    (shows_reversed (shows_plain true fun c hcs => (htop c hcs).2)) hw (by rw [List.length_map, hl]; show 0 + g.width ≤ g.width; omega)
  generalize hg1 : g.erase.draw (.at 0 0 true top) = g1 at i1 i2 i3 i7
  have i2 : g1.width = g.width := i2
  have i3 : g1.height = g.height := i3
  have e : g.drawAll ([.clear, .at 0 0 true top] ++ entryDraws m.selected 0 rows) = g1.drawAll (entryDraws m.selected 0 rows) := by
    rw [← hg1]; rfl
  -- what each entry shows
  have hlen' := looks_length hf
  rw [List.length_take] at hlen'
  have hcells : ∀ k, ∃ l, ∀ en, m.entries[k]? = some en → EntryLook p g.width (decide (k = m.selected)) en.text l := by
    intro k
    cases hk : m.entries[k]? with
    | none => exact ⟨[], fun _ h => by cases h⟩
    | some en =>
      obtain ⟨l, hl⟩ := hc en (List.mem_of_getElem? hk) (decide (k = m.selected))
      exact ⟨l, fun _ h => by cases h; exact hl⟩
  obtain ⟨cells, hcells⟩ := Classical.axiomOfChoice hcells
  have hs : ∀ k s, rows[k]? = some s →
      Displays false (if decide (0 + k = m.selected) then reversedText s else s) (cells (0 + k)) false ∧ (cells (0 + k)).length ≤ g1.width := by
    intro k s hk
    rw [Nat.zero_add, i2]
    have hlt : k < rows.length := (List.getElem?_eq_some_iff.mp hk).1
    obtain ⟨en, hen⟩ : ∃ en, (m.entries.take (g.height - 1))[k]? = some en :=
      ⟨_, List.getElem?_eq_getElem (by rw [List.length_take]; omega)⟩
    obtain ⟨s', hs', hsh⟩ := forall2_get hf hen
    rw [hk] at hs'
    cases hs'
    rw [List.getElem?_take] at hen
    split at hen
    · exact look_entry (hcells k en hen) hsh
    · cases hen
  obtain ⟨j1, j2, j3, j4⟩ := draw_entries_cells i1 (selected := m.selected) (i := 0) hs (by rw [i3]; omega)
  rw [e, et2]
  refine ⟨j1, j2.trans i2, j3.trans i3, fun x hx => ?_, fun i hi => ?_⟩
  · rw [j2, i2] at hx
    rw [j4 0 x (by rw [i2]; exact hx), if_neg (by omega), i7, if_pos ⟨by omega, Nat.zero_le _⟩, Nat.sub_zero, List.getElem?_map,
      List.getElem?_eq_getElem (by omega), dif_pos (by omega)]
    rfl
  · cases hm : m.entries[i]? with
    | none =>
      intro x hx
      rw [j2, i2] at hx
      have := List.getElem?_eq_none_iff.mp hm
      rw [j4 (i + 1) x (by rw [i2]; exact hx), if_neg (by omega), i7, if_neg (by omega)]
      simp [erase]
    | some en =>
      have hil := (List.getElem?_eq_some_iff.mp hm).1
      refine ⟨cells i, hcells i en hm, fun x hx => ?_⟩
      rw [j4 (i + 1) x (by rw [i2]; exact hx), if_pos (by omega), i2]
      rfl

/-- C109 is false of the highlighted entry when it has a match: what ends the match also ends reversed video, so that what comes after
the first match is read as if it were not highlighted. -/
theorem C109_match_refuted {g : Glass} (hg : Ready g) (hh : g.height ≤ 65535) {m : RemoteMenu T}
    (ht : ∀ c ∈ m.title ++ m.search, c.val < 128 ∧ OneCell c)
    (hc : ∀ e ∈ m.entries, ∀ rev, ∃ l, EntryLook p g.width rev e.text l) {ds : List Draw}
    (h : drawMenu p g.width g.height m = .ok ds) (hi : m.selected + 1 < g.height) {e : RemoteEntry T}
    (he : m.entries[m.selected]? = some e) {u v w : Str}
    (hp : p.renderMenu e.text = u ++ str!"\x1b[4m" ++ v ++ str!"\x1b[0m" ++ w) (hq : p.plain e.text = u ++ v ++ w)
    (hone : ∀ c ∈ u ++ v ++ w, OneCell c) :
    ∀ x < g.width - 1, (hx : x < (u ++ v ++ w).length) →
      (g.drawAll ds).cells (m.selected + 1) x = ⟨(u ++ v ++ w)[x], decide (x < (u ++ v).length)⟩ := by
  obtain ⟨_, _, _, _, h5⟩ := C109_matches hg hh ht hc h
  have h5 := h5 m.selected hi
  rw [he] at h5
  obtain ⟨l, h6, h7⟩ := h5
  simp only [decide_true] at h6
  have hd : Displays true (p.renderMenu e.text) ((u ++ v).map (⟨·, true⟩) ++ w.map (⟨·, false⟩)) false := by
    have h1 : Displays true (u ++ (str!"\x1b[" ++ str!"4" ++ 'm' :: (v ++ (str!"\x1b[0m" ++ w))))
        (u.map (⟨·, true⟩) ++ (v.map (⟨·, true⟩) ++ w.map (⟨·, false⟩))) false := by
      refine shows_append (shows_plain true fun c hc => hone c (by simp [hc])) ?_
      refine .other (by decide) (by decide) (by decide) (by decide) ?_
      exact shows_append (shows_plain true fun c hc => hone c (by simp [hc])) (.off (shows_plain false fun c hc => hone c (by simp [hc])))
    rw [hp]
    simpa using h1
  have hl : l = (u ++ v).map (⟨·, true⟩) ++ w.map (⟨·, false⟩) := by
    rcases h6 with ⟨h1, rfl⟩ | ⟨qs, h1, _, rfl⟩
    · exfalso
      have h2 : ('\x1b' : Char) ∈ p.plain e.text := by
        rw [← h1.renderMenu, hp]; simp
      exact h1.oneCell _ h2 (by decide)
    · obtain ⟨r', h3, _⟩ := shows_matches (rev := true) h1.oneCell
      rw [h1.renderMenu] at hd
      exact displays_unique h3 hd
  intro x hx hlt
  rw [h7 x (by omega), hl, List.getElem?_take, if_pos hx]
  by_cases hxu : x < (u ++ v).length
  · rw [List.getElem?_append_left (by rw [List.length_map]; exact hxu), List.getElem?_map, List.getElem?_eq_getElem hxu,
      List.getElem_append_left hxu, decide_eq_true hxu]
    rfl
  · have hxw : x - (u ++ v).length < w.length := by rw [List.length_append] at hlt; omega
    rw [List.getElem?_append_right (by rw [List.length_map]; omega), List.length_map, List.getElem?_map, List.getElem?_eq_getElem hxw,
      List.getElem_append_right (by omega), decide_eq_false hxu]
    rfl

/-- Entries of pieces, as they are drawn. -/
def matched : Paint (List EntryPart) :=
  { render := fun qs => qs.flatMap (·.text), renderMenu := fun qs => qs.flatMap EntryPart.sent
    textLen := fun qs => (qs.flatMap (·.text)).length, plain := fun qs => qs.flatMap (·.text), blank := [] }

/-- The menu of files after `rs` was typed, with the second entry highlighted. -/
def matchedMenu : RemoteMenu (List EntryPart) :=
  { command := str!"open", title := str!"file", search := str!"rs", selected := 1
    entries := [{ value := str!"a", text := [⟨str!"a.", false⟩, ⟨str!"rs", true⟩], description := none },
      { value := str!"b", text := [⟨str!"b", false⟩, ⟨str!"rs", true⟩, ⟨str!".txt", false⟩], description := none }] }

/-- What is read of it: `.txt` is not in reversed video. -/
example : (drawMenu matched 24 5 matchedMenu).toOption.map (fun ds => (List.range 4).map fun y =>
      (letters ((emptyGlass 24 5).drawAll ds) y,
        (List.range 10).map fun x => if (((emptyGlass 24 5).drawAll ds).cells y x).reversed then '^' else '.')) =
    some [(str!"file:rs                 ", str!"^^^^^^^^^^"), (str!"a.rs                    ", str!".........."),
      (str!"brs.txt                 ", str!"^^^......."), (str!"                        ", str!"..........")] := by
  decide +kernel

/-- The hypotheses of C109_matches and C109_match_refuted are met by it. -/
example : (∀ c ∈ matchedMenu.title ++ matchedMenu.search, c.val < 128 ∧ OneCell c) ∧
    (∀ e ∈ matchedMenu.entries, ∀ rev, ∃ l, EntryLook matched 24 rev e.text l) ∧
    ∃ e, matchedMenu.entries[matchedMenu.selected]? = some e ∧
      matched.renderMenu e.text = str!"b" ++ str!"\x1b[4m" ++ str!"rs" ++ str!"\x1b[0m" ++ str!".txt" := by
  refine ⟨by unfold OneCell; decide, ?_, _, rfl, rfl⟩
  intro e he rev
  simp only [matchedMenu, List.mem_cons, List.not_mem_nil, or_false] at he
  rcases he with rfl | rfl
  · refine ⟨_, .inr ⟨_, ⟨rfl, rfl, ?_⟩, by decide +kernel, rfl⟩⟩
    unfold OneCell; decide
  · refine ⟨_, .inr ⟨_, ⟨rfl, rfl, ?_⟩, by decide +kernel, rfl⟩⟩
    unfold OneCell; decide

end Ced.Props

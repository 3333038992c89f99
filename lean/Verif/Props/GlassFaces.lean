import Verif.Props.Glass
import Verif.Spec.GlassFaces

/-! # C109: selections on the terminal -/

namespace Ced.Props
open Spec Tui Glass

variable {T : Type} {p : Paint T} {pieces : T → List LinePart}

namespace C109

theorem shows_piece {q : LinePart} (h : ∀ c ∈ q.text, OneCell c) : Displays false q.sent q.cells false := by
  obtain ⟨s, look⟩ := q
  cases look with
  | plain => exact shows_plain false h
  | selected => exact shows_reversed (shows_plain true h)
  | red =>
    have h2 : Displays false (str!"\x1b[" ++ str!"39" ++ 'm' :: []) [] false :=
      .other (by decide) (by decide) (by decide) (by decide) .nil
    have h1 : Displays false (str!"\x1b[" ++ str!"38;5;9" ++ 'm' :: (s ++ (str!"\x1b[" ++ str!"39" ++ 'm' :: []))) (s.map (⟨·, false⟩) ++ []) false :=
      .other (by decide) (by decide) (by decide) (by decide) (shows_append (shows_plain false h) h2)
    rw [List.append_nil] at h1
    have e : (LinePart.sent ⟨s, .red⟩) = str!"\x1b[" ++ str!"38;5;9" ++ 'm' :: (s ++ (str!"\x1b[" ++ str!"39" ++ 'm' :: [])) := by
      simp [LinePart.sent]
    rw [e]
    exact h1

theorem shows_pieces {qs : List LinePart} (h : ∀ q ∈ qs, ∀ c ∈ q.text, OneCell c) :
    Displays false (qs.flatMap LinePart.sent) (qs.flatMap LinePart.cells) false := by
  induction qs with
  | nil => exact .nil
  | cons q qs ih =>
    rw [List.flatMap_cons, List.flatMap_cons]
    exact shows_append (shows_piece (h q List.mem_cons_self)) (ih fun q hq => h q (List.mem_cons_of_mem _ hq))

theorem pieces_length (qs : List LinePart) : (qs.flatMap LinePart.cells).length = (qs.flatMap (·.text)).length := by
  induction qs with
  | nil => rfl
  | cons q qs ih => rw [List.flatMap_cons, List.flatMap_cons, List.length_append, List.length_append, ih]; simp [LinePart.cells]

theorem piecesRow_shown {w : Nat} {r : Row T} {s : Str} (hc : PiecesRow p pieces w r) (h : RowShown p w r s) :
    Displays false s (rowCells p pieces w r) false ∧ (rowCells p pieces w r).length ≤ w := by
  cases r with
  | header b x y =>
    obtain ⟨h1, h2, h3⟩ := row_shown (p := p) (r := .header b x y) hc h
    rw [h1] at h2 h3
    rw [h1]
    exact ⟨h3, by unfold rowCells; rw [List.length_map]; exact h2⟩
  | line t =>
    obtain ⟨h1, h2, h3⟩ := hc
    have h : if p.textLen t ≤ w then s = p.render t else _ := h
    rw [if_pos h2, h1.render] at h
    rw [h]
    refine ⟨shows_pieces h1.oneCell, ?_⟩
    show ((pieces t).flatMap LinePart.cells).length ≤ w
    rw [pieces_length, ← h1.plain]; exact h3

theorem piecesRows_shown {w : Nat} {rows : List (Row T)} {content : List Str} (hc : ∀ r ∈ rows, PiecesRow p pieces w r)
    (h : List.Forall₂ (RowShown p w) rows content) :
    List.Forall₂ (fun s l => Displays false s l false ∧ l.length ≤ w) content (rows.map (rowCells p pieces w)) := by
  induction h with
  | nil => exact .nil
  | @cons r s rs ss h _ ih =>
    exact .cons (piecesRow_shown (hc r List.mem_cons_self) h) (ih fun r hr => hc r (List.mem_cons_of_mem _ hr))

theorem look_row {w : Nat} {r : Row T} {s : Str} {l : List Cell} (hc : RowLook p w r l) (h : RowShown p w r s) :
    Displays false s l false ∧ l.length ≤ w := by
  have clean : ∀ {r : Row T}, CleanRow p r → RowShown p w r s →
      Displays false s ((rowText p w r).map (⟨·, false⟩)) false ∧ ((rowText p w r).map (⟨·, false⟩ : Char → Cell)).length ≤ w := by
    intro r hc h
    obtain ⟨h1, h2, h3⟩ := row_shown hc h
    rw [h1] at h2 h3
    rw [h1, List.length_map]
    exact ⟨h3, h2⟩
  cases r with
  | header b x y =>
    obtain ⟨h1, rfl⟩ := hc
    exact clean (r := .header b x y) h1 h
  | line t =>
    rcases hc with ⟨h1, rfl⟩ | ⟨qs, h1, h2, h3, rfl⟩
    · exact clean (r := .line t) h1 h
    · exact piecesRow_shown (pieces := fun _ => qs) (r := .line t) ⟨h1, h2, h3⟩ h

theorem look_shown {w : Nat} {rows : List (Row T)} {content : List Str} (hc : ∀ r ∈ rows, ∃ l, RowLook p w r l)
    (h : List.Forall₂ (RowShown p w) rows content) :
    ∃ ls, List.Forall₂ (RowLook p w) rows ls ∧ List.Forall₂ (fun s l => Displays false s l false ∧ l.length ≤ w) content ls := by
  induction h with
  | nil => exact ⟨[], .nil, .nil⟩
  | @cons r s rs ss h _ ih =>
    obtain ⟨l, hl⟩ := hc r List.mem_cons_self
    obtain ⟨ls, h1, h2⟩ := ih fun r hr => hc r (List.mem_cons_of_mem _ hr)
    exact ⟨l :: ls, .cons hl h1, .cons (look_row hl h) h2⟩

theorem looks_length {α β : Type} {P : α → β → Prop} {as : List α} {bs : List β} (h : List.Forall₂ P as bs) : as.length = bs.length := by
  induction h with
  | nil => rfl
  | cons _ _ ih => rw [List.length_cons, List.length_cons, ih]

theorem forall2_get {α β : Type} {P : α → β → Prop} {as : List α} {bs : List β} (h : List.Forall₂ P as bs) {k : Nat} {a : α}
    (ha : as[k]? = some a) : ∃ b, bs[k]? = some b ∧ P a b := by
  induction h generalizing k with
  | nil => simp at ha
  | cons h _ ih =>
    cases k with
    | zero => cases ha; exact ⟨_, rfl, h⟩
    | succ k => exact ih (by simpa using ha)

/-- The letters of a row that looks like a line. -/
theorem look_letters {w : Nat} {t : T} {l : List Cell} (h : RowLook p w (.line t) l) : l.map (·.letter) = (p.plain t).take w := by
  rcases h with ⟨_, rfl⟩ | ⟨qs, h1, _, h3, rfl⟩
  · rw [List.map_map]; exact List.map_id _
  · rw [List.take_of_length_le h3, h1.plain]
    clear h1 h3
    induction qs with
    | nil => rfl
    | cons q qs ih =>
      rw [List.flatMap_cons, List.flatMap_cons, List.map_append, ih]
      congr 1
      unfold LinePart.cells
      rw [List.map_map]; exact List.map_id _

theorem readsRow_letters {g : Glass} {y : Nat} {t : T} (h : ReadsRow p g y (.line t)) : ReadsLetters g y ((p.plain t).take g.width) := by
  obtain ⟨l, h1, h2⟩ := h
  intro x hx
  rw [h2 x hx, ← look_letters h1, List.getElem?_map]
  cases l[x]? <;> rfl

/-- What a text shows is determined by it. -/
theorem displays_unique {r r1 r2 : Bool} {s : Str} {l l' : List Cell} (h : Displays r s l r1) (h' : Displays r s l' r2) : l = l' := by
  let g : Glass := { width := l.length + l'.length + 1, height := 1, cells := fun _ _ => .blank, x := 0, y := 0, wrap := false,
                     reversed := r, reading := .ground }
  have hat : At g := ⟨Nat.succ_pos _, Nat.one_pos, fun h => by cases h⟩
  have hcol : col g = 0 := rfl
  obtain ⟨_, _, _, _, _, _, i7, i8⟩ := print_shows h (g := g) rfl rfl hat (by rw [hcol]; show 0 + l.length ≤ l.length + l'.length + 1; omega)
  obtain ⟨_, _, _, _, _, _, j7, j8⟩ := print_shows h' (g := g) rfl rfl hat (by rw [hcol]; show 0 + l'.length ≤ l.length + l'.length + 1; omega)
  rw [hcol] at i7 i8 j7 j8
  have hlen : l.length = l'.length := by omega
  refine List.ext_getElem hlen fun k h1 h2 => ?_
  have := (i8 0 k).symm.trans (j8 0 k)
  rw [if_pos ⟨rfl, Nat.zero_le _⟩, if_pos ⟨rfl, Nat.zero_le _⟩, Nat.sub_zero, List.getElem?_eq_getElem h1, List.getElem?_eq_getElem h2] at this
  exact this

/-- A row that looks like a line, and what the whole line would show. -/
theorem look_displays {w : Nat} {t : T} {l : List Cell} (h : RowLook p w (.line t) l) :
    ∃ full, Displays false (p.render t) full false ∧ l = full.take w := by
  rcases h with ⟨h1, rfl⟩ | ⟨qs, h1, _, h3, rfl⟩
  · exact ⟨(p.plain t).map (⟨·, false⟩), by rw [h1.render]; exact shows_plain false h1.oneCell, by rw [List.map_take]⟩
  · refine ⟨qs.flatMap LinePart.cells, by rw [h1.render]; exact shows_pieces h1.oneCell, ?_⟩
    rw [List.take_of_length_le]
    rw [pieces_length, ← h1.plain]; exact h3

theorem letters_cells (qs : List LinePart) : (qs.flatMap LinePart.cells).map (·.letter) = qs.flatMap (·.text) := by
  induction qs with
  | nil => rfl
  | cons q qs ih =>
    rw [List.flatMap_cons, List.flatMap_cons, List.map_append, ih]
    congr 1
    unfold LinePart.cells
    rw [List.map_map]; exact List.map_id _

theorem letters_marked (d : DecoratedLine) : (markedCells d).map (·.letter) = d.text.map fun b => Char.ofNat b.toNat := by
  unfold markedCells
  rw [List.map_map]
  have : ((fun c : Cell => c.letter) ∘ fun bi : UInt8 × Nat =>
      (⟨Char.ofNat bi.1.toNat, d.selected.any fun r => decide (r.1 ≤ bi.2 ∧ bi.2 < r.2)⟩ : Cell)) =
      (fun b : UInt8 => Char.ofNat b.toNat) ∘ Prod.fst := rfl
  rw [this, ← List.map_map, List.zipIdx_map_fst]

/-- A line that is read shows the selections that the server sent with it. -/
theorem reads_marked {o : Ornament T} (ho : FaithfulLines o p) {d : DecoratedLine} (hd : ∀ b ∈ d.text, OneCell (Char.ofNat b.toNat))
    {g : Glass} {y : Nat} (h : ReadsRow p g y (.line (o.decorated d))) :
    ∀ x < g.width, g.cells y x = ((markedCells d)[x]?).getD .blank := by
  obtain ⟨l, h1, h2⟩ := h
  obtain ⟨full, h3, rfl⟩ := look_displays h1
  obtain ⟨qs, e1, e2⟩ := ho d
  have hone : ∀ q ∈ qs, ∀ c ∈ q.text, OneCell c := by
    intro q hq c hc
    have : c ∈ qs.flatMap (·.text) := List.mem_flatMap.2 ⟨q, hq, hc⟩
    rw [← letters_cells, e2, letters_marked] at this
    obtain ⟨b, hb, rfl⟩ := List.mem_map.1 this
    exact hd b hb
  have : full = markedCells d := by
    rw [← e2]
    rw [e1] at h3
    exact displays_unique h3 (shows_pieces hone)
  intro x hx
  rw [h2 x hx, List.getElem?_take, if_pos hx, this]

/-- The status line over rows that are drawn. -/
theorem status_over {g1 : Glass} (hw : 0 < g1.width) (hh : 0 < g1.height) (hr : g1.reading = .ground) {text : Str}
    (ht : ∀ c ∈ text, OneCell c) (hl : text.length ≤ g1.width) :
    Ready (g1.draw (.at 0 g1.height true text)) ∧ (g1.draw (.at 0 g1.height true text)).width = g1.width ∧
    (g1.draw (.at 0 g1.height true text)).height = g1.height ∧
    (∀ y, y + 1 < g1.height → ∀ x, (g1.draw (.at 0 g1.height true text)).cells y x = g1.cells y x) ∧
    ∀ x (hx : x < text.length), (g1.draw (.at 0 g1.height true text)).cells (g1.height - 1) x = ⟨text[x], true⟩ := by
  have hd : Displays g1.reversed (reversedText text) (text.map (⟨·, true⟩)) false := by
    have : Displays g1.reversed (str!"\x1b[7m" ++ (text ++ (str!"\x1b[0m" ++ []))) (text.map (⟨·, true⟩) ++ []) false :=
      .on (shows_append (shows_plain true ht) (.off .nil))
    simpa [reversedText] using this
  obtain ⟨i1, i2, i3, i4, _, _, _, i8⟩ := draw_from hw hh hr (x := 0) (y := g1.height) (rev := true) (s := text) hd hw
    (by rw [List.length_map]; omega)
  refine ⟨⟨by rw [i3]; exact hw, by rw [i4]; exact hh, i1, i2⟩, i3, i4, fun y hy x => ?_, fun x hx => ?_⟩
  · rw [i8, if_neg (by omega)]
  · rw [i8, if_pos ⟨by omega, Nat.zero_le _⟩, Nat.sub_zero, List.getElem?_map, List.getElem?_eq_getElem hx]; rfl

end C109
open C109

/-- C109: selections are what the user sees in reversed video: when the lines of the view, made of pieces, fit, every row of the glass
above the last one shows the letters of its row, reversed where a piece is selected and nowhere else, and nothing after them; the last
row begins with the status line. -/
theorem C109_selection {g : Glass} (hg : Ready g) {s : ConnectionState T} (hr : ∀ r ∈ rowsOf s.view, PiecesRow p pieces g.width r)
    (he : CleanText p (s.echo.getD p.blank)) (hs : ∀ i ∈ s.status, ∀ c ∈ p.plain i.2, OneCell c) (hw : echoLen p s ≤ g.width)
    {ds : List Draw} (h : drawView p g.width g.height s = .ok ds) :
    Ready (g.drawAll ds) ∧ (g.drawAll ds).width = g.width ∧ (g.drawAll ds).height = g.height ∧
    (∀ y, y + 1 < g.height → ∀ r,
      (drawn g.height (rowsOf s.view))[(drawn g.height (rowsOf s.view)).length - g.height + y]? = some r →
      ∀ x < g.width, (g.drawAll ds).cells y x = ((rowCells p pieces g.width r)[x]?).getD .blank) ∧
    (∀ y, y + 1 < g.height → (drawn g.height (rowsOf s.view)).length ≤ y → ∀ x < g.width, (g.drawAll ds).cells y x = .blank) ∧
    ∀ x (hx : x < (lastLine p g.width s).length), (g.drawAll ds).cells (g.height - 1) x = ⟨(lastLine p g.width s)[x], true⟩ := by
  obtain ⟨content, status, rfl, h2, h3⟩ := C60_rows h
  have hr : ∀ r ∈ drawn g.height (rowsOf s.view), PiecesRow p pieces g.width r := by
    intro r hrd
    refine hr r ?_
    unfold drawn at hrd
    split at hrd
    · exact List.mem_of_mem_take hrd
    · exact hrd
  obtain ⟨rfl, t2, t3⟩ := status_text he hs hw h2
  obtain ⟨i1, i2, i3, i4⟩ := draw_rows hg (piecesRows_shown hr h3)
  generalize hg1 : g.drawAll [.clear, .at 0 0 false (Str.join str!"\r\n" content)] = g1 at i1 i2 i3 i4
  have e : g.drawAll ([.clear, .at 0 0 false (Str.join str!"\r\n" content)] ++ [.at 0 g.height true (lastLine p g.width s)]) =
      g1.draw (.at 0 g1.height true (lastLine p g.width s)) := by
    rw [i3, ← hg1]; rfl
  rw [e]
  obtain ⟨j1, j2, j3, j4, j5⟩ := status_over i1.width i1.height i1.reading t3 (by rw [i2]; exact t2)
  rw [i3] at j4 j5 ⊢
  rw [i3] at j1 j2 j3
  refine ⟨j1, j2.trans i2, j3, fun y hy r hr x hx => ?_, fun y hy hn x hx => ?_, j5⟩
  · rw [j4 y hy, i4 y (by omega) x hx, List.length_map]
    unfold rowCell
    rw [List.getElem?_map, hr]; rfl
  · rw [j4 y hy, i4 y (by omega) x hx, rowCell_beyond _ (by rw [List.length_map]; omega)]

/-- C109, for lines of both kinds: those without decoration, which are cut, and those made of pieces, which fit. -/
theorem C109_faces {g : Glass} (hg : Ready g) {s : ConnectionState T} (hc : FacedState p g.width s) (hw : echoLen p s ≤ g.width)
    {ds : List Draw} (h : drawView p g.width g.height s = .ok ds) :
    Ready (g.drawAll ds) ∧ (g.drawAll ds).width = g.width ∧ (g.drawAll ds).height = g.height ∧
    (∀ y, y + 1 < g.height → ∀ r,
      (drawn g.height (rowsOf s.view))[(drawn g.height (rowsOf s.view)).length - g.height + y]? = some r →
      ReadsRow p (g.drawAll ds) y r) ∧
    (∀ y, y + 1 < g.height → (drawn g.height (rowsOf s.view)).length ≤ y → Reads (g.drawAll ds) y [] false) ∧
    ∀ x (hx : x < (lastLine p g.width s).length), (g.drawAll ds).cells (g.height - 1) x = ⟨(lastLine p g.width s)[x], true⟩ := by
  obtain ⟨content, status, rfl, h2, h3⟩ := C60_rows h
  have hr : ∀ r ∈ drawn g.height (rowsOf s.view), ∃ l, RowLook p g.width r l := by
    intro r hrd
    refine hc.rows r ?_
    unfold drawn at hrd
    split at hrd
    · exact List.mem_of_mem_take hrd
    · exact hrd
  obtain ⟨rfl, t2, t3⟩ := status_text hc.echo hc.status hw h2
  obtain ⟨ls, h4, h5⟩ := look_shown hr h3
  obtain ⟨i1, i2, i3, i4⟩ := draw_rows hg h5
  generalize hg1 : g.drawAll [.clear, .at 0 0 false (Str.join str!"\r\n" content)] = g1 at i1 i2 i3 i4
  have e : g.drawAll ([.clear, .at 0 0 false (Str.join str!"\r\n" content)] ++ [.at 0 g.height true (lastLine p g.width s)]) =
      g1.draw (.at 0 g1.height true (lastLine p g.width s)) := by
    rw [i3, ← hg1]; rfl
  rw [e]
  obtain ⟨j1, j2, j3, j4, j5⟩ := status_over i1.width i1.height i1.reading t3 (by rw [i2]; exact t2)
  rw [i3] at j4 j5 ⊢
  rw [i3] at j1 j2 j3
  have hlen := looks_length h4
  refine ⟨j1, j2.trans i2, j3, fun y hy r hr => ?_, fun y hy hn x hx => ?_, j5⟩
  · obtain ⟨l, h6, h7⟩ := forall2_get h4 hr
    refine ⟨l, by rw [j2, i2]; exact h7, fun x hx => ?_⟩
    rw [j2, i2] at hx
    rw [j4 y hy, i4 y (by omega) x hx, ← hlen]
    unfold rowCell
    rw [h6]; rfl
  · rw [j2, i2] at hx
    rw [j4 y hy, i4 y (by omega) x hx, rowCell_beyond _ (by omega)]
    simp

namespace C109

/-- A text of ASCII characters is cut at bytes, which are letters. -/
theorem prefix_ascii {s s' rest : Str} {w : Nat} (h : ∀ c ∈ s, c.val < 128) (e : s = s' ++ rest) (hl : s'.byteLen = w) : s' = s.take w := by
  have : s'.length = w := by
    rw [← byteLen_ascii fun c hc => h c (by rw [e]; exact List.mem_append_left _ hc)]; exact hl
  rw [e, List.take_append_of_le_length (by omega), List.take_of_length_le (by omega)]

/-- Lines that are drawn when reversed video was left on. -/
theorem leaked {w : Nat} {rows : List (Row T)} {content : List Str} (hl : ∀ r ∈ rows, ∃ t, r = .line t)
    (hc : ∀ r ∈ rows, CleanRow p r) (h : List.Forall₂ (RowShown p w) rows content) :
    RowsDrawn w true content (rows.map fun r => (rowText p w r).map (⟨·, true⟩)) true := by
  induction h with
  | nil => exact .nil
  | @cons r s rs ss h _ ih =>
    obtain ⟨h1, h2, _⟩ := row_shown (hc r List.mem_cons_self) h
    obtain ⟨t, rfl⟩ := hl r List.mem_cons_self
    have h3 : ∀ c ∈ s, OneCell c := by
      intro c hcs
      rw [h1] at hcs
      exact CleanText.oneCell (hc _ List.mem_cons_self) c (List.mem_of_mem_take hcs)
    show RowsDrawn w true (s :: ss) ((rowText p w (.line t)).map (⟨·, true⟩) :: _) true
    rw [← h1]
    refine .cons (r' := true) ?_ ?_ (ih (fun r hr => hl r (List.mem_cons_of_mem _ hr)) fun r hr => hc r (List.mem_cons_of_mem _ hr))
    · exact shows_plain true h3
    · rw [List.length_map]; exact h2

end C109

/-- C109 is false of a line that is cut in a selection: the cut counts the control sequence before the selection as four letters, so
that many letters less are read, and it drops the one behind it, so that every line below is read in reversed video, though nothing of
it is selected. -/
theorem C109_cut_refuted {g : Glass} (hg : Ready g) (hh : 3 ≤ g.height) {s : ConnectionState T} {b : Str} {x y n : Nat} {t : T}
    {ts : List T} (hv : s.view = [{ buffer := b, start := x, stop := y, lenses := [{ lines := t :: ts, firstLineNum := n }] }])
    {u v : Str} (ht : PiecesText p t [⟨u, .plain⟩, ⟨v, .selected⟩]) (hu : ∀ c ∈ u, c.val < 128) (hv' : ∀ c ∈ v, c.val < 128)
    (hlen : p.textLen t = (u ++ v).length) (hcut : g.width < (u ++ v).length) (h4 : u.length + 4 ≤ g.width)
    (hb : ∀ c ∈ b, c.val < 128 ∧ OneCell c) (hts : ∀ t ∈ ts, CleanText p t)
    (he : CleanText p (s.echo.getD p.blank)) (hs : ∀ i ∈ s.status, ∀ c ∈ p.plain i.2, OneCell c) (hw : echoLen p s ≤ g.width)
    {ds : List Draw} (h : drawView p g.width g.height s = .ok ds) :
    (∀ x < g.width, (g.drawAll ds).cells 1 x =
      (((u.map (⟨·, false⟩) ++ (v.take (g.width - u.length - 4)).map (⟨·, true⟩) : List Cell))[x]?).getD .blank) ∧
    ∀ k t', ts[k]? = some t' → k + 3 < g.height → Reads (g.drawAll ds) (k + 2) ((p.plain t').take g.width) true := by
  obtain ⟨content, status, rfl, h2, h3⟩ := C60_rows h
  obtain ⟨rfl, t2, t3⟩ := status_text he hs hw h2
  have hn := C60_one (height := g.height) { buffer := b, start := x, stop := y, lenses := [{ lines := t :: ts, firstLineNum := n }] } (by omega)
  rw [hv] at h3
  have erows : rowsOf [({ buffer := b, start := x, stop := y, lenses := [{ lines := t :: ts, firstLineNum := n }] } : RemoteItem T)] =
      .header b x y :: .line t :: ts.map .line := by simp [rowsOf]
  rw [erows] at h3 hn
  obtain ⟨m, hm⟩ : ∃ m, drawn g.height (.header b x y :: .line t :: ts.map Row.line) = .header b x y :: .line t :: (ts.take m).map .line ∧
      (m < ts.length → g.height ≤ m + 3) := by
    unfold drawn
    split
    · refine ⟨g.height - 1 - 2, ?_, by omega⟩
      rw [show g.height - 1 = (g.height - 1 - 2) + 1 + 1 by omega]
      simp [List.take_succ_cons, List.map_take]
    · exact ⟨ts.length, by rw [List.take_length], fun h => by omega⟩
  obtain ⟨em, hm⟩ := hm
  rw [em] at h3 hn
  have hlenc : ((Row.header b x y :: Row.line t :: (ts.take m).map (Row.line : T → Row T))).length ≤ g.height := by omega
  cases h3 with
  | @cons _ c0 _ _ s0 h3 =>
  cases h3 with
  | @cons _ c1 _ cs s1 h3 =>
  obtain ⟨a1, a2, a3⟩ := row_shown (p := p) (r := .header b x y) hb s0
  -- the line that is cut
  have s1 : if p.textLen t ≤ g.width then c1 = p.render t else (∃ rest, p.render t = c1 ++ rest) ∧ c1.byteLen = g.width := s1
  rw [if_neg (by omega)] at s1
  obtain ⟨⟨rest, er⟩, hl⟩ := s1
  have erd : p.render t = u ++ (str!"\x1b[7m" ++ (v ++ str!"\x1b[0m")) := by
    rw [ht.render]; simp [LinePart.sent]
  have hasc : ∀ c ∈ p.render t, c.val < 128 := by
    intro c hc
    rw [erd] at hc
    simp only [List.mem_append] at hc
    rcases hc with h | h | h | h
    · exact hu c h
    · revert c; decide
    · exact hv' c h
    · revert c; decide
  have ec1 : c1 = u ++ (str!"\x1b[7m" ++ v.take (g.width - u.length - 4)) := by
    rw [List.length_append] at hcut
    rw [prefix_ascii hasc er hl, erd]
    rw [List.take_append, List.take_of_length_le (by omega), List.take_append, List.take_of_length_le (by show 4 ≤ _; omega),
      List.take_append_of_le_length (by show g.width - u.length - 4 ≤ v.length; omega)]
    rfl
  have hcells : Displays false c1 (u.map (⟨·, false⟩) ++ (v.take (g.width - u.length - 4)).map (⟨·, true⟩)) true := by
    rw [ec1]
    exact shows_append (shows_plain false (ht.oneCell ⟨u, .plain⟩ (by simp)))
      (.on (shows_plain true fun c hc => ht.oneCell ⟨v, .selected⟩ (by simp) c (List.mem_of_mem_take hc)))
  have hchain : RowsDrawn g.width false (c0 :: c1 :: cs)
      ((rowText p g.width (.header b x y)).map (⟨·, false⟩) ::
        (u.map (⟨·, false⟩) ++ (v.take (g.width - u.length - 4)).map (⟨·, true⟩)) ::
        ((ts.take m).map Row.line).map fun r => (rowText p g.width r).map (⟨·, true⟩)) true := by
    refine .cons (r' := false) ?_ ?_ (.cons hcells ?_ (leaked ?_ ?_ h3))
    · rw [← a1]; exact a3
    · rw [List.length_map, ← a1]; exact a2
    · rw [List.length_append, List.length_map, List.length_map, List.length_take]; omega
    · intro r hr
      obtain ⟨t, _, rfl⟩ := List.mem_map.mp hr
      exact ⟨t, rfl⟩
    · intro r hr
      obtain ⟨t, ht, rfl⟩ := List.mem_map.mp hr
      exact hts t (List.mem_of_mem_take ht)
  obtain ⟨i0, _, i2, i3, i4⟩ := draw_chain hg hchain
  generalize hg1 : g.drawAll [.clear, .at 0 0 false (Str.join str!"\r\n" (c0 :: c1 :: cs))] = g1 at i0 i2 i3 i4
  have e : g.drawAll ([.clear, .at 0 0 false (Str.join str!"\r\n" (c0 :: c1 :: cs))] ++ [.at 0 g.height true (lastLine p g.width s)]) =
      g1.draw (.at 0 g1.height true (lastLine p g.width s)) := by
    rw [i3, ← hg1]; rfl
  rw [e]
  obtain ⟨j1, j2, j3, j4, _⟩ := status_over (by rw [i2]; exact hg.width) (by rw [i3]; exact hg.height) i0 t3 (by rw [i2]; exact t2)
  have hz : ∀ k, ((rowText p g.width (.header b x y)).map (⟨·, false⟩) ::
        (u.map (⟨·, false⟩) ++ (v.take (g.width - u.length - 4)).map (⟨·, true⟩)) ::
        ((ts.take m).map Row.line).map fun r => (rowText p g.width r).map (⟨·, true⟩) : List (List Cell)).length - g.height + k = k := by
    intro k
    simp only [List.length_cons, List.length_map] at hlenc ⊢
    omega
  refine ⟨fun x hx => ?_, fun k t' hk hk3 x hx => ?_⟩
  · rw [j4 1 (by rw [i3]; omega), i4 1 (by omega) x hx, hz]
    rfl
  · rw [j2, i2] at hx
    have hkl : k < ts.length := (List.getElem?_eq_some_iff.mp hk).1
    rw [j4 (k + 2) (by rw [i3]; omega), i4 (k + 2) (by omega) x hx, hz]
    unfold rowCell
    rw [List.getElem?_cons_succ, List.getElem?_cons_succ, List.getElem?_map, List.getElem?_map, List.getElem?_take]
    rw [if_pos (by omega), hk]
    show ((((p.plain t').take g.width).map (⟨·, true⟩ : Char → Cell))[x]?).getD .blank = _
    rw [List.getElem?_map]
    split
    · rename_i h; rw [List.getElem?_eq_getElem h]; rfl
    · rename_i h; rw [List.getElem?_eq_none (by omega)]; rfl

/-- Lines of pieces, as they are drawn. -/
def pieced : Paint (List LinePart) :=
  { render := fun qs => qs.flatMap LinePart.sent, renderMenu := fun qs => qs.flatMap (·.text)
    textLen := fun qs => (qs.flatMap (·.text)).length, plain := fun qs => qs.flatMap (·.text), blank := [] }

/-- Texts of pieces: a piece for each letter of a line. -/
def pieceTexts : Ornament (List LinePart) where
  faced s f := [⟨s, if f = .error then .red else .plain⟩]
  fragments l := l.map fun x => ⟨x.1, if x.2 = .error then .red else .plain⟩
  decorated d := (markedCells d).map fun c => ⟨[c.letter], if c.reversed then .selected else .plain⟩
  encode t := .arr (t.map fun q => .arr [.str q.text, .num (match q.look with | .plain => 0 | .red => 1 | .selected => 2)])
  decode
    | .arr l => l.mapM fun j => match j with
      | .arr [.str s, .num n] => some ⟨s, if n = 0 then .plain else if n = 1 then .red else .selected⟩
      | _ => none
    | _ => none

/-- C109_marked applies to them. -/
theorem pieceTexts_faithful : FaithfulLines pieceTexts pieced := by
  intro d
  refine ⟨_, rfl, ?_⟩
  show ((markedCells d).map _).flatMap LinePart.cells = markedCells d
  generalize markedCells d = l
  induction l with
  | nil => rfl
  | cons c l ih =>
    rw [List.map_cons, List.flatMap_cons, ih]
    obtain ⟨c, rev⟩ := c
    cases rev <;> rfl

/-- A view of these lines of pieces. -/
def piecedView (lines : List (List LinePart)) : ConnectionState (List LinePart) :=
  { (Connection.new : Connection (List LinePart)).state with
    view := [{ buffer := str!"f", start := 1, stop := 2, lenses := [{ lines, firstLineNum := 1 }] }] }

/-- The letters and the marks of reversed video of a drawing of it on a glass of 14 columns and 5 rows. -/
def piecedRead (lines : List (List LinePart)) : Option (List (Str × Str)) :=
  (drawView pieced 14 5 (piecedView lines)).toOption.map fun ds =>
    (List.range 4).map fun y => (letters ((emptyGlass 14 5).drawAll ds) y,
      (List.range 14).map fun x => if (((emptyGlass 14 5).drawAll ds).cells y x).reversed then '^' else '.')

/-- C109_selection applies: a selected word, and an error. -/
example : piecedRead [[⟨str!"let ", .plain⟩, ⟨str!"x", .selected⟩, ⟨str!" = 1;", .plain⟩], [⟨str!"oops", .red⟩, ⟨str!"!", .plain⟩]] =
    some [(str!"-[f][1:2]-----", str!".............."), (str!"let x = 1;    ", str!"....^........."),
      (str!"oops!         ", str!".............."), (str!"              ", str!"..............")] := by decide +kernel

example : ∀ r ∈ rowsOf (piecedView [[⟨str!"let ", .plain⟩, ⟨str!"x", .selected⟩, ⟨str!" = 1;", .plain⟩]]).view,
    PiecesRow pieced id 14 r := by
  intro r hr
  simp only [piecedView, rowsOf, List.flatMap_cons, List.flatMap_nil, List.append_nil, List.map_cons, List.map_nil, List.mem_cons,
    List.not_mem_nil, or_false] at hr
  rcases hr with rfl | rfl
  · intro c hc; simp only [List.mem_cons, List.not_mem_nil, or_false] at hc; subst hc; unfold OneCell; decide
  · refine ⟨⟨rfl, rfl, ?_⟩, by decide, by decide⟩
    unfold OneCell
    decide

/-- C109_faces applies: a line with a selection and a message. -/
example : FacedState pieced 14 { piecedView [[⟨str!"let ", .plain⟩, ⟨str!"x", .selected⟩, ⟨str!" = 1;", .plain⟩]] with
    echo := some [⟨str!"saved", .plain⟩] } := by
  refine ⟨fun r hr => ?_, ?_, fun i hi => (by cases hi)⟩
  · simp only [piecedView, rowsOf, List.flatMap_cons, List.flatMap_nil, List.append_nil, List.map_cons, List.map_nil, List.mem_cons,
      List.not_mem_nil, or_false] at hr
    rcases hr with rfl | rfl
    · refine ⟨_, fun c hc => ?_, rfl⟩
      simp only [List.mem_cons, List.not_mem_nil, or_false] at hc; subst hc; unfold OneCell; decide
    · refine ⟨_, .inr ⟨[⟨str!"let ", .plain⟩, ⟨str!"x", .selected⟩, ⟨str!" = 1;", .plain⟩], ⟨rfl, rfl, ?_⟩, by decide, by decide, rfl⟩⟩
      unfold OneCell
      decide
  · have h : ∀ c ∈ (str!"saved" : Str), c.val < 128 ∧ OneCell c := by unfold OneCell; decide
    exact { ascii := fun c hc => (h c hc).1, len := rfl, render := rfl, renderMenu := rfl, oneCell := fun c hc => (h c hc).2 }

/-- C109_cut_refuted applies: the selection is cut, and the line below is read as if it were selected. -/
example : piecedRead [[⟨str!"let ", .plain⟩, ⟨str!"a_long_name", .selected⟩], [⟨str!"next", .plain⟩]] =
    some [(str!"-[f][1:2]-----", str!".............."), (str!"let a_long    ", str!"....^^^^^^...."),
      (str!"next          ", str!"^^^^.........."), (str!"              ", str!"..............")] := by decide +kernel

end Ced.Props

import Verif.Proofs.Glass
import Verif.Props.Tui
import Verif.Proofs.View

/-! # C109: what the user reads on the terminal -/

namespace Ced.Props
open Spec Tui Glass

variable {T : Type} {p : Paint T}

namespace C109

theorem shows_append {r r1 r2 : Bool} {s s' : Str} {l l' : List Cell} (h : Displays r s l r1) (h' : Displays r1 s' l' r2) :
    Displays r (s ++ s') (l ++ l') r2 := by
  induction h with
  | nil => exact h'
  | letter hc _ ih => exact .letter hc (ih h')
  | on _ ih => rw [List.append_assoc]; exact .on (ih h')
  | off _ ih => rw [List.append_assoc]; exact .off (ih h')
  | other h1 h2 h3 h4 _ ih => rw [List.append_assoc, List.cons_append]; exact .other h1 h2 h3 h4 (ih h')

/-- A text of printable characters. -/
theorem shows_plain {s : Str} (r : Bool) (h : ∀ c ∈ s, OneCell c) : Displays r s (s.map (⟨·, r⟩)) r := by
  induction s with
  | nil => exact .nil
  | cons c s ih => exact .letter (h c List.mem_cons_self) (ih fun d hd => h d (List.mem_cons_of_mem _ hd))

theorem shows_reversed {s : Str} {l : List Cell} {r : Bool} (h : Displays true s l r) : Displays false (reversedText s) l false := by
  have := shows_append (Displays.on (r := false) h) (.off .nil : Displays r (str!"\x1b[0m" ++ []) [] false)
  simpa [reversedText] using this

/-- A drawing of a text that fits. -/
theorem draw_from {g : Glass} (hw : 0 < g.width) (hh : 0 < g.height) (hr : g.reading = .ground) {x y : Nat} {rev r' : Bool} {s : Str}
    {l : List Cell} (h : Displays g.reversed (if rev then reversedText s else s) l r') (hx : x < g.width) (hl : x + l.length ≤ g.width) :
    (g.draw (.at x y rev s)).reading = .ground ∧ (g.draw (.at x y rev s)).reversed = r' ∧
    (g.draw (.at x y rev s)).width = g.width ∧ (g.draw (.at x y rev s)).height = g.height ∧
    At (g.draw (.at x y rev s)) ∧ (g.draw (.at x y rev s)).y = min y (g.height - 1) ∧
    col (g.draw (.at x y rev s)) = x + l.length ∧
    ∀ y' x', (g.draw (.at x y rev s)).cells y' x' =
      if y' = min y (g.height - 1) ∧ x ≤ x' then (l[x' - x]?).getD (g.cells y' x') else g.cells y' x' := by
  have hcol : col (g.moveTo x y) = x := by
    show (if false = true then _ else min x (g.width - 1)) = x
    rw [if_neg (by simp)]; omega
  obtain ⟨i1, i2, i3, i4, i5, i6, i7, i8⟩ := print_shows h (g := g.moveTo x y) hr rfl
    ⟨by show min x (g.width - 1) < g.width; omega, by show min y (g.height - 1) < g.height; omega, fun h => by cases h⟩
    (by rw [hcol]; exact hl)
  rw [hcol] at i7 i8
  exact ⟨i1, i2, i4, i5, i3, i6, i7, i8⟩

theorem draw_at {g : Glass} (hg : Ready g) {x y : Nat} {rev : Bool} {s : Str} {l : List Cell}
    (h : Displays false (if rev then reversedText s else s) l false) (hx : x < g.width) (hl : x + l.length ≤ g.width) :
    Ready (g.draw (.at x y rev s)) ∧ (g.draw (.at x y rev s)).width = g.width ∧ (g.draw (.at x y rev s)).height = g.height ∧
    At (g.draw (.at x y rev s)) ∧ (g.draw (.at x y rev s)).y = min y (g.height - 1) ∧
    col (g.draw (.at x y rev s)) = x + l.length ∧
    ∀ y' x', (g.draw (.at x y rev s)).cells y' x' =
      if y' = min y (g.height - 1) ∧ x ≤ x' then (l[x' - x]?).getD (g.cells y' x') else g.cells y' x' := by
  obtain ⟨i1, i2, i4, i5, i⟩ := draw_from hg.width hg.height hg.reading (x := x) (y := y) (rev := rev) (r' := false) (s := s) (l := l)
    (by rw [hg.reversed]; exact h) hx hl
  exact ⟨⟨by rw [i4]; exact hg.width, by rw [i5]; exact hg.height, i1, i2⟩, i4, i5, i⟩

theorem join_flat (sep s : Str) (ss : List Str) : Str.join sep (s :: ss) = s ++ ss.flatMap (fun s => sep ++ s) := by
  induction ss generalizing s with
  | nil => simp [Str.join]
  | cons t ts ih => rw [Str.join, ih, List.flatMap_cons, List.append_assoc, List.append_assoc]; intro h; cases h

/-- Rows that are drawn, the last of which may leave reversed video on. -/
theorem draw_chain {g : Glass} (hg : Ready g) {content : List Str} {ls : List (List Cell)} {r' : Bool}
    (h : RowsDrawn g.width false content ls r') :
    (g.drawAll [.clear, .at 0 0 false (Str.join str!"\r\n" content)]).reading = .ground ∧
    (g.drawAll [.clear, .at 0 0 false (Str.join str!"\r\n" content)]).reversed = r' ∧
    (g.drawAll [.clear, .at 0 0 false (Str.join str!"\r\n" content)]).width = g.width ∧
    (g.drawAll [.clear, .at 0 0 false (Str.join str!"\r\n" content)]).height = g.height ∧
    ∀ y < g.height, ∀ x < g.width, (g.drawAll [.clear, .at 0 0 false (Str.join str!"\r\n" content)]).cells y x =
      rowCell ls (ls.length - g.height + y) x := by
  have hw := hg.width
  have hh := hg.height
  have he : g.erase.reversed = false := hg.reversed
  have e0 : g.drawAll [.clear, .at 0 0 false (Str.join str!"\r\n" content)] = g.erase.draw (.at 0 0 false (Str.join str!"\r\n" content)) := rfl
  rw [e0]
  cases h with
  | nil =>
    obtain ⟨i0, i1, i2, i3, _, _, _, i7⟩ := draw_from (g := g.erase) hw hh hg.reading (x := 0) (y := 0) (rev := false)
      (s := Str.join str!"\r\n" []) (l := []) (r' := false) (by rw [he]; exact .nil) hw (by show 0 ≤ g.width; omega)
    refine ⟨i0, i1, i2, i3, fun y _ x _ => ?_⟩
    rw [i7, rowCell_beyond _ (by simp)]
    simp [erase]
  | @cons _ s l r1 ss ls _ h1 hl h2 =>
    have e : g.erase.draw (.at 0 0 false (Str.join str!"\r\n" (s :: ss))) =
        (g.erase.draw (.at 0 0 false s)).print (ss.flatMap fun s => str!"\r\n" ++ s) := by
      show ((g.erase.moveTo 0 0).print (Str.join _ (s :: ss))) = ((g.erase.moveTo 0 0).print s).print _
      rw [join_flat, print_append]
    rw [e]
    obtain ⟨i0, i1, i2, i3, i4, i5, i6, i7⟩ := draw_from (g := g.erase) hw hh hg.reading (x := 0) (y := 0) (rev := false) (s := s) (l := l)
      (r' := r1) (by rw [he]; exact h1) hw (by show 0 + l.length ≤ g.width; omega)
    have hf : Filled (g.erase.draw (.at 0 0 false s)) r1 [l] := by
      refine ⟨i0, i1, i4, ?_, ?_⟩
      · rw [i5, i3]
        show min 0 (g.height - 1) + 1 = min 1 g.height
        omega
      · intro y hy x hx
        rw [i3] at hy
        have hy : y < g.height := hy
        rw [i7, i3, rowCell_drop]
        show (if y = min 0 (g.height - 1) ∧ 0 ≤ x then (l[x - 0]?).getD .blank else Cell.blank) = rowCell [l] (1 - g.height + y) x
        rw [show 1 - g.height + y = y by omega]
        by_cases h0 : y = 0
        · subst h0
          rw [if_pos ⟨by omega, Nat.zero_le _⟩]
          rfl
        · rw [if_neg (fun h => h0 (by omega)), rowCell_beyond _ (by simp; omega)]
    obtain ⟨j1, j2, j3⟩ := filled_rows hf (ls := ls) (content := ss) (by rw [i2]; exact h2)
    rw [i2] at j2
    rw [i3] at j3
    have j2 : (print (g.erase.draw (.at 0 0 false s)) (ss.flatMap fun s => str!"\r\n" ++ s)).width = g.width := j2
    have j3 : (print (g.erase.draw (.at 0 0 false s)) (ss.flatMap fun s => str!"\r\n" ++ s)).height = g.height := j3
    refine ⟨j1.reading, j1.reversed, j2, j3, fun y hy x hx => ?_⟩
    rw [j1.cells y (by rw [j3]; exact hy) x (by rw [j2]; exact hx), rowCell_drop, j3]
    rfl

/-- A view that is drawn. -/
theorem draw_rows {g : Glass} (hg : Ready g) {content : List Str} {ls : List (List Cell)}
    (h : List.Forall₂ (fun s l => Displays false s l false ∧ l.length ≤ g.width) content ls) :
    Ready (g.drawAll [.clear, .at 0 0 false (Str.join str!"\r\n" content)]) ∧
    (g.drawAll [.clear, .at 0 0 false (Str.join str!"\r\n" content)]).width = g.width ∧
    (g.drawAll [.clear, .at 0 0 false (Str.join str!"\r\n" content)]).height = g.height ∧
    ∀ y < g.height, ∀ x < g.width, (g.drawAll [.clear, .at 0 0 false (Str.join str!"\r\n" content)]).cells y x =
      rowCell ls (ls.length - g.height + y) x := by
  obtain ⟨i1, i2, i3, i4, i5⟩ := draw_chain hg (.clean h)
  exact ⟨⟨by rw [i3]; exact hg.width, by rw [i4]; exact hg.height, i1, i2⟩, i3, i4, i5⟩

theorem length_le_bytes (s : Str) : s.length ≤ s.byteLen := by
  induction s with
  | nil => exact Nat.zero_le _
  | cons c s ih =>
    have : 1 ≤ c.utf8Size := Char.utf8Size_pos c
    rw [byteLen_cons, List.length_cons]
    omega

theorem digit_printable {n : Nat} : ∀ c ∈ natStr n, c.val < 128 ∧ OneCell c := by
  intro c hc
  have h : c.isDigit = true := decimal_digit hc
  simp only [Char.isDigit, Bool.and_eq_true, decide_eq_true_eq] at h
  have h1 : 48 ≤ c.val.toNat := h.1
  have h2 : c.val.toNat ≤ 57 := h.2
  refine ⟨by show c.val.toNat < 128; omega, ?_⟩
  unfold OneCell
  have e : c.toNat = c.val.toNat := rfl
  omega

theorem row_shown {w : Nat} {r : Row T} {s : Str} (hc : CleanRow p r) (h : RowShown p w r s) :
    s = rowText p w r ∧ s.length ≤ w ∧ Displays false s (s.map (⟨·, false⟩)) false := by
  cases r with
  | line t =>
    obtain ⟨h1, h2⟩ := C60_line hc.toPlainText h
    refine ⟨h1, h2, shows_plain _ fun c hcs => hc.oneCell c ?_⟩
    rw [h1] at hcs
    exact List.mem_of_mem_take hcs
  | header b x y =>
    obtain ⟨n, e, hl⟩ := h
    have hall : ∀ c ∈ s, c.val < 128 ∧ OneCell c := by
      intro c hcs
      rw [e] at hcs
      simp only [List.mem_append, List.mem_replicate] at hcs
      have lit : ∀ d : Char, c = d → d.val < 128 ∧ OneCell d → c.val < 128 ∧ OneCell c := fun d hd h => hd ▸ h
      rcases hcs with ((((((h | h) | h) | h) | h) | h) | h) | ⟨_, h⟩
      · have : c = '-' ∨ c = '[' := by simpa using h
        rcases this with h | h
        · exact lit _ h ⟨by decide, by unfold OneCell; decide⟩
        · exact lit _ h ⟨by decide, by unfold OneCell; decide⟩
      · exact hc c h
      · have : c = ']' ∨ c = '[' := by simpa using h
        rcases this with h | h
        · exact lit _ h ⟨by decide, by unfold OneCell; decide⟩
        · exact lit _ h ⟨by decide, by unfold OneCell; decide⟩
      · exact digit_printable c h
      · exact lit ':' (by simpa using h) ⟨by decide, by unfold OneCell; decide⟩
      · exact digit_printable c h
      · exact lit ']' (by simpa using h) ⟨by decide, by unfold OneCell; decide⟩
      · exact lit '-' h ⟨by decide, by unfold OneCell; decide⟩
    have hlen : s.length = w := by rw [← byteLen_ascii fun c hcs => (hall c hcs).1]; exact hl
    refine ⟨?_, by omega, shows_plain _ fun c hcs => (hall c hcs).2⟩
    show s = (str!"-[" ++ b ++ str!"][" ++ natStr x ++ str!":" ++ natStr y ++ str!"]" ++ List.replicate w '-').take w
    generalize hpre : (str!"-[" ++ b ++ str!"][" ++ natStr x ++ str!":" ++ natStr y ++ str!"]" : Str) = pre at e ⊢
    rw [e, List.length_append, List.length_replicate] at hlen
    rw [e, List.take_append, List.take_of_length_le (by omega), List.take_replicate]
    congr 2
    omega

theorem rows_shown {w : Nat} {rows : List (Row T)} {content : List Str} (hc : ∀ r ∈ rows, CleanRow p r)
    (h : List.Forall₂ (RowShown p w) rows content) :
    List.Forall₂ (fun s l => Displays false s l false ∧ l.length ≤ w) content
      (rows.map fun r => (rowText p w r).map (⟨·, false⟩)) := by
  induction h with
  | nil => exact .nil
  | @cons r s rs ss h _ ih =>
    obtain ⟨h1, h2, h3⟩ := row_shown (hc r List.mem_cons_self) h
    refine .cons ⟨?_, ?_⟩ (ih fun r hr => hc r (List.mem_cons_of_mem _ hr))
    · show Displays false s ((rowText p w r).map (⟨·, false⟩)) false
      rw [← h1]; exact h3
    · rw [List.length_map, ← h1]; exact h2

theorem status_text {g : Glass} {s : ConnectionState T} {ds : List Draw} (he : CleanText p (s.echo.getD p.blank))
    (hs : ∀ i ∈ s.status, ∀ c ∈ p.plain i.2, OneCell c) (hw : echoLen p s ≤ g.width)
    (h : drawStatus p g.width g.height s = .ok ds) :
    ds = [.at 0 g.height true (lastLine p g.width s)] ∧ (lastLine p g.width s).length ≤ g.width ∧
      ∀ c ∈ lastLine p g.width s, OneCell c := by
  obtain ⟨text, e, h1, h2⟩ := C72_drawn h
  have hlen : echoLen p s = (p.plain (s.echo.getD p.blank)).length := he.len
  have hst : ∀ c ∈ statusShown p s, OneCell c := by
    have key : ∀ (l : List Str), (∀ s ∈ l, ∀ c ∈ s, OneCell c) → ∀ c ∈ Str.join ['·'] l, OneCell c := by
      intro l
      clear hs
      induction l with
      | nil => intro _ c h; cases h
      | cons s ss ih =>
        intro hs c hcs
        rw [join_flat] at hcs
        rcases List.mem_append.mp hcs with h | h
        · exact hs s List.mem_cons_self c h
        · obtain ⟨t, ht, h⟩ := List.mem_flatMap.mp h
          rcases List.mem_append.mp h with h | h
          · have : c = '·' := by simpa using h
            subst this
            unfold OneCell; decide
          · exact hs t (List.mem_cons_of_mem _ ht) c h
    unfold statusShown
    apply key
    intro t ht c hcs
    obtain ⟨i, hi, rfl⟩ := List.mem_map.mp ht
    exact hs i hi c hcs
  by_cases hlt : echoLen p s < g.width
  · obtain ⟨e2, h3⟩ := h2 hlt
    have et : text = lastLine p g.width s := by unfold lastLine; rw [if_pos hlt, e2, he.render]
    refine ⟨by rw [e, et], ?_, ?_⟩
    · unfold lastLine
      rw [if_pos hlt]
      have := length_le_bytes (statusShown p s)
      simp only [List.length_append, List.length_replicate]
      omega
    · unfold lastLine
      rw [if_pos hlt]
      intro c hcs
      rcases List.mem_append.mp hcs with hcs | hcs
      · rcases List.mem_append.mp hcs with hcs | hcs
        · exact he.oneCell c hcs
        · obtain ⟨_, rfl⟩ := List.mem_replicate.mp hcs
          unfold OneCell; decide
      · exact hst c hcs
  · have et : text = lastLine p g.width s := by unfold lastLine; rw [if_neg hlt, h1 (by omega), he.render]
    refine ⟨by rw [e, et], ?_, ?_⟩
    · unfold lastLine; rw [if_neg hlt]; omega
    · unfold lastLine; rw [if_neg hlt]; exact he.oneCell

theorem cells_of {rows : List (Row T)} {k : Nat} {r : Row T} {w x : Nat} (h : rows[k]? = some r) :
    rowCell (rows.map fun r => (rowText p w r).map (⟨·, false⟩)) k x =
      if h : x < (rowText p w r).length then ⟨(rowText p w r)[x], false⟩ else .blank := by
  unfold rowCell
  rw [List.getElem?_map, h]
  simp only [Option.map_some, Option.getD_some, List.getElem?_map]
  split
  · rename_i hx; rw [List.getElem?_eq_getElem hx]; rfl
  · rename_i hx; rw [List.getElem?_eq_none (by omega)]; rfl

end C109
open C109

/-- C109: the view that is drawn is what the user reads: each row of the glass above the last one reads as the row of the view that
C60 says, cut and padded to the width, or is empty below the view; the last one begins with the status line, in reversed video. When
the view has more rows than the glass, the last ones are read, as a terminal scrolls. -/
theorem C109_view {g : Glass} (hg : Ready g) {s : ConnectionState T} (hc : CleanState p s) (hw : echoLen p s ≤ g.width)
    {ds : List Draw} (h : drawView p g.width g.height s = .ok ds) :
    Ready (g.drawAll ds) ∧ (g.drawAll ds).width = g.width ∧ (g.drawAll ds).height = g.height ∧
    (∀ y, y + 1 < g.height → ∀ r,
      (drawn g.height (rowsOf s.view))[(drawn g.height (rowsOf s.view)).length - g.height + y]? = some r →
      Reads (g.drawAll ds) y (rowText p g.width r) false) ∧
    (∀ y, y + 1 < g.height → (drawn g.height (rowsOf s.view)).length ≤ y → Reads (g.drawAll ds) y [] false) ∧
    (∀ x (hx : x < (lastLine p g.width s).length),
      (g.drawAll ds).cells (g.height - 1) x = ⟨(lastLine p g.width s)[x], true⟩) ∧
    ((drawn g.height (rowsOf s.view)).length < g.height → Reads (g.drawAll ds) (g.height - 1) (lastLine p g.width s) true) := by
  obtain ⟨content, status, rfl, h2, h3⟩ := C60_rows h
  have hr : ∀ r ∈ drawn g.height (rowsOf s.view), CleanRow p r := by
    intro r hr
    refine hc.rows r ?_
    unfold drawn at hr
    split at hr
    · exact List.mem_of_mem_take hr
    · exact hr
  obtain ⟨rfl, t2, t3⟩ := status_text hc.echo hc.status hw h2
  obtain ⟨i1, i2, i3, i4⟩ := draw_rows hg (rows_shown hr h3)
  generalize hg1 : g.drawAll [.clear, .at 0 0 false (Str.join str!"\r\n" content)] = g1 at i1 i2 i3 i4
  have e : g.drawAll ([.clear, .at 0 0 false (Str.join str!"\r\n" content)] ++ [.at 0 g.height true (lastLine p g.width s)]) =
      g1.draw (.at 0 g.height true (lastLine p g.width s)) := by
    rw [← hg1]; rfl
  rw [e]
  obtain ⟨j1, j2, j3, _, _, _, j7⟩ := draw_at i1 (x := 0) (y := g.height) (rev := true) (s := lastLine p g.width s)
    (shows_reversed (shows_plain true t3)) i1.width (by rw [List.length_map, i2]; omega)
  have hh := hg.height
  have other : ∀ y, y + 1 < g.height → ∀ x < g.width, (g1.draw (.at 0 g.height true (lastLine p g.width s))).cells y x =
      rowCell ((drawn g.height (rowsOf s.view)).map fun r => (rowText p g.width r).map (⟨·, false⟩))
        ((drawn g.height (rowsOf s.view)).length - g.height + y) x := by
    intro y hy x hx
    rw [j7, if_neg (by rw [i3]; omega), i4 y (by omega) x hx, List.length_map]
  have last : ∀ x, (g1.draw (.at 0 g.height true (lastLine p g.width s))).cells (g.height - 1) x =
      (((lastLine p g.width s).map (⟨·, true⟩ : Char → Cell))[x]?).getD (g1.cells (g.height - 1) x) := by
    intro x
    rw [j7, if_pos ⟨by rw [i3]; omega, Nat.zero_le _⟩]
    rfl
  refine ⟨j1, j2.trans i2, j3.trans i3, ?_, ?_, ?_, ?_⟩
  · intro y hy r hr x hx
    rw [j2, i2] at hx
    rw [other y hy x hx]
    exact cells_of hr
  · intro y hy hn x hx
    rw [j2, i2] at hx
    rw [other y hy x hx, rowCell_beyond _ (by rw [List.length_map]; omega)]
    simp
  · intro x hx
    rw [last, List.getElem?_map, List.getElem?_eq_getElem hx]
    rfl
  · intro hn x hx
    rw [j2, i2] at hx
    rw [last, List.getElem?_map]
    split
    · rename_i h; rw [List.getElem?_eq_getElem h]; rfl
    · rename_i h
      rw [List.getElem?_eq_none (by omega)]
      show g1.cells (g.height - 1) x = _
      rw [i4 (g.height - 1) (by omega) x hx, rowCell_beyond _ (by rw [List.length_map]; omega)]

/-- C109: a view of one buffer, on a glass of two rows or more: its header, then the first lines of the buffer, one per row, as many
as there are rows left above the status line; the rows below are empty. -/
theorem C109_one {g : Glass} (hg : Ready g) (hh : 2 ≤ g.height) {s : ConnectionState T} (hc : CleanState p s)
    (hw : echoLen p s ≤ g.width) {item : RemoteItem T} (hi : s.view = [item]) {ds : List Draw}
    (h : drawView p g.width g.height s = .ok ds) :
    Reads (g.drawAll ds) 0 (rowText p g.width (.header item.buffer item.start item.stop)) false ∧
    (∀ k, k + 2 < g.height → Reads (g.drawAll ds) (k + 1)
      (match (item.lenses.flatMap (·.lines))[k]? with | some t => (p.plain t).take g.width | none => []) false) ∧
    Reads (g.drawAll ds) (g.height - 1) (lastLine p g.width s) true := by
  obtain ⟨_, _, _, h1, h2, _, h4⟩ := C109_view hg hc hw h
  have hn := C60_one (height := g.height) item hh
  rw [hi] at h1 h2 h4
  have hd : ∀ k, k + 1 < g.height →
      (drawn g.height (rowsOf [item]))[(drawn g.height (rowsOf [item])).length - g.height + k]? = (rowsOf [item])[k]? := by
    intro k hk
    rw [show (drawn g.height (rowsOf [item])).length - g.height + k = k by omega]
    unfold drawn
    split
    · rw [List.getElem?_take]; rw [if_pos (by omega)]
    · rfl
  have hrows : ∀ k, (rowsOf [item])[k + 1]? = ((item.lenses.flatMap (·.lines))[k]?).map .line := by
    intro k; simp [rowsOf]
  refine ⟨h1 0 (by omega) _ (by rw [hd 0 (by omega)]; rfl), fun k hk => ?_, h4 (by omega)⟩
  cases hl : (item.lenses.flatMap (·.lines))[k]? with
  | some t =>
    exact h1 (k + 1) (by omega) (.line t) (by rw [hd _ (by omega), hrows, hl]; rfl)
  | none =>
    refine h2 (k + 1) (by omega) ?_
    have := hrows k
    rw [hl] at this
    have h5 := hd (k + 1) (by omega)
    rw [this] at h5
    have := List.getElem?_eq_none_iff.mp h5
    omega

/-- C109 is false of messages that are wider than the glass: drawing the status line then scrolls, so every row above shows what the
row below it showed, and the first one, the header of the first buffer, is gone. -/
theorem C109_message_refuted {g : Glass} (hg : Ready g) (hh : 2 ≤ g.height) {s : ConnectionState T}
    (he : CleanText p (s.echo.getD p.blank)) (h1 : g.width < echoLen p s) (h2 : echoLen p s ≤ 2 * g.width) {ds : List Draw}
    (h : drawStatus p g.width g.height s = .ok ds) :
    (∀ y, y + 2 < g.height → ∀ x < g.width, (g.drawAll ds).cells y x = g.cells (y + 1) x) ∧
    Reads (g.drawAll ds) (g.height - 2) ((p.plain (s.echo.getD p.blank)).take g.width) true ∧
    Reads (g.drawAll ds) (g.height - 1) ((p.plain (s.echo.getD p.blank)).drop g.width) true := by
  obtain ⟨text, e, e1, _⟩ := C72_drawn h
  have et : text = p.plain (s.echo.getD p.blank) := by rw [e1 (by omega), he.render]
  have hlen : echoLen p s = (p.plain (s.echo.getD p.blank)).length := he.len
  have hp := he.oneCell
  rw [e, et]
  generalize p.plain (s.echo.getD p.blank) = m at *
  clear e1 et e
  rw [hlen] at h1 h2
  have hw := hg.width
  -- the first part fills the last row
  have hsplit : m = m.take g.width ++ m.drop g.width := (List.take_append_drop _ _).symm
  have ht : (m.take g.width).length = g.width := by rw [List.length_take]; omega
  obtain ⟨c, rest, hd⟩ : ∃ c rest, m.drop g.width = c :: rest := by
    cases hd : m.drop g.width with
    | nil => have := congrArg List.length hd; rw [List.length_drop, List.length_nil] at this; omega
    | cons c rest => exact ⟨c, rest, rfl⟩
  have hdl : (c :: rest).length = m.length - g.width := by rw [← hd, List.length_drop]
  have hpt : ∀ d ∈ m.take g.width, OneCell d := fun d h => hp d (List.mem_of_mem_take h)
  have hpd : ∀ d ∈ c :: rest, OneCell d := fun d h => hp d (List.mem_of_mem_drop (hd ▸ h))
  have hon : Displays false (str!"\x1b[7m" ++ m.take g.width) ((m.take g.width).map (⟨·, true⟩)) true := .on (shows_plain true hpt)
  have hcol : col (g.moveTo 0 g.height) = 0 := by
    show (if false = true then _ else min 0 (g.width - 1)) = 0
    rw [if_neg (by simp)]; omega
  have hym : (g.moveTo 0 g.height).y = g.height - 1 := by show min g.height (g.height - 1) = _; omega
  obtain ⟨i1, i2, i3, i4, i5, i6, i7, i8⟩ := print_shows hon (g := g.moveTo 0 g.height) hg.reading hg.reversed
    ⟨by show min 0 (g.width - 1) < g.width; omega, by rw [hym]; show g.height - 1 < g.height; omega, fun h => by cases h⟩
    (by rw [hcol, List.length_map]; show 0 + (m.take g.width).length ≤ g.width; omega)
  rw [hcol] at i7 i8
  rw [hym] at i6 i8
  generalize hg1 : (g.moveTo 0 g.height).print (str!"\x1b[7m" ++ m.take g.width) = g1 at i1 i2 i3 i4 i5 i6 i7 i8
  have i4 : g1.width = g.width := i4
  have i5 : g1.height = g.height := i5
  rw [List.length_map, ht] at i7
  have hwrap : g1.wrap = true := by
    cases hwr : g1.wrap with
    | true => rfl
    | false => have := i3.x; simp only [col, hwr] at i7; simp at i7; omega
  -- the next letter scrolls
  let g2 : Glass := g1.carriageReturn.lineFeed
  have eg2 : g2 = { g1 with
      x := 0, wrap := false
      cells := fun y x => if y + 1 < g1.height then g1.cells (y + 1) x else .blank } := by
    show g1.carriageReturn.lineFeed = _
    unfold lineFeed; rw [if_pos (by show g1.y + 1 = g1.height; omega)]; rfl
  have eput : g1.print (c :: rest) = g2.print (c :: rest) := by
    rw [print_cons, print_cons, type_printable g1 i1 (hpd c List.mem_cons_self),
      type_printable g2 (by rw [eg2]; exact i1) (hpd c List.mem_cons_self)]
    have : g1.put c = g2.put c := by
      have hw2 : g2.wrap = false := by rw [eg2]
      unfold put
      rw [if_pos hwrap, if_neg (by simp [hw2])]
    rw [this]
  have hoff : Displays true (c :: rest ++ (str!"\x1b[0m" ++ [])) ((c :: rest).map (⟨·, true⟩) ++ []) false :=
    shows_append (shows_plain true hpd) (.off .nil)
  rw [List.append_nil, List.append_nil] at hoff
  have hc2 : col g2 = 0 := by rw [eg2]; rfl
  obtain ⟨j1, j2, j3, j4, j5, j6, j7, j8⟩ := print_shows hoff (g := g2) (by rw [eg2]; exact i1) (by rw [eg2]; exact i2)
    ⟨by rw [eg2]; show 0 < g1.width; omega, by rw [eg2]; exact i3.y, fun h => by rw [eg2] at h; cases h⟩
    (by rw [hc2, List.length_map, hdl, eg2]; show 0 + (m.length - g.width) ≤ g1.width; omega)
  have etot : g.drawAll [.at 0 g.height true m] = g2.print (c :: rest ++ str!"\x1b[0m") := by
    show (g.moveTo 0 g.height).print (reversedText m) = _
    have : reversedText m = (str!"\x1b[7m" ++ m.take g.width) ++ (c :: rest ++ str!"\x1b[0m") := by
      unfold reversedText
      conv => lhs; rw [hsplit]
      rw [hd]
      simp
    rw [this, print_append, hg1, print_append, eput, ← print_append]
  rw [etot]
  have hy2 : g2.y = g.height - 1 := by rw [eg2]; exact i6
  have ew : (g2.print (c :: rest ++ str!"\x1b[0m")).width = g.width := by rw [j4, eg2]; exact i4
  have cell2 : ∀ y x, g2.cells y x = if y + 1 < g.height then g1.cells (y + 1) x else .blank := by
    intro y x; rw [eg2]; show (if y + 1 < g1.height then _ else _) = _; rw [i5]
  refine ⟨fun y hy x hx => ?_, fun x hx => ?_, fun x hx => ?_⟩
  · rw [j8, hy2, if_neg (by omega), cell2, if_pos (by omega), i8, if_neg (by omega)]
    rfl
  · rw [ew] at hx
    rw [j8, hy2, if_neg (by omega), cell2, if_pos (by omega), i8, if_pos ⟨by omega, Nat.zero_le _⟩, List.getElem?_map]
    split
    · rename_i h; rw [Nat.sub_zero, List.getElem?_eq_getElem h]; rfl
    · rename_i h; omega
  · rw [ew] at hx
    rw [j8, hy2, if_pos ⟨rfl, by rw [hc2]; exact Nat.zero_le _⟩, hc2, List.getElem?_map, hd, cell2, if_neg (by omega)]
    split
    · rename_i h; rw [Nat.sub_zero, List.getElem?_eq_getElem h]; rfl
    · rename_i h; rw [Nat.sub_zero, List.getElem?_eq_none (by omega)]; rfl

namespace C109

/-- An entry of a menu: what is right of it is erased, and so is a letter in the last column, where the cursor still is. -/
theorem draw_entry {g : Glass} (hg : Ready g) {i : Nat} {rev : Bool} {s : Str} (hs : ∀ c ∈ s, OneCell c) (hl : s.length ≤ g.width)
    (hi : i + 1 < g.height) :
    Ready (g.drawAll [.at 0 (i + 1) rev s, .clearRest]) ∧ (g.drawAll [.at 0 (i + 1) rev s, .clearRest]).width = g.width ∧
    (g.drawAll [.at 0 (i + 1) rev s, .clearRest]).height = g.height ∧
    ∀ y, ∀ x < g.width, (g.drawAll [.at 0 (i + 1) rev s, .clearRest]).cells y x =
      if y = i + 1 then (((s.take (g.width - 1)).map (⟨·, rev⟩ : Char → Cell))[x]?).getD .blank else g.cells y x := by
  have hd : Displays false (if rev then reversedText s else s) (s.map (⟨·, rev⟩)) false := by
    cases rev with
    | true => exact shows_reversed (shows_plain true hs)
    | false => exact shows_plain false hs
  obtain ⟨i1, i2, i3, i4, i5, i6, i7⟩ := draw_at hg (x := 0) (y := i + 1) hd hg.width (by rw [List.length_map]; omega)
  generalize hg1 : g.draw (.at 0 (i + 1) rev s) = g1 at i1 i2 i3 i4 i5 i6 i7
  have e : g.drawAll [.at 0 (i + 1) rev s, .clearRest] = g1.draw .clearRest := by rw [← hg1]; rfl
  rw [e]
  have hmin : min (i + 1) (g.height - 1) = i + 1 := by omega
  rw [hmin] at i5 i7
  rw [List.length_map] at i6
  have hx1 : g1.x = min s.length (g.width - 1) := by
    have a1 := i4.x
    unfold col at i6
    split at i6
    · rename_i h; have := i4.wrap h; omega
    · omega
  refine ⟨⟨i1.width, i1.height, i1.reading, i1.reversed⟩, i2, i3, fun y x hx => ?_⟩
  show (if y = g1.y ∧ g1.x ≤ x then Cell.blank else g1.cells y x) = _
  rw [i5, hx1, i7]
  by_cases hy : y = i + 1
  · rw [if_pos hy]
    by_cases h1 : min s.length (g.width - 1) ≤ x
    · rw [if_pos ⟨hy, h1⟩, List.getElem?_eq_none (by rw [List.length_map, List.length_take]; omega)]; rfl
    · rw [if_neg (fun h => h1 h.2), if_pos ⟨hy, Nat.zero_le _⟩, List.getElem?_map, List.getElem?_map, List.getElem?_take,
        if_pos (by omega), Nat.sub_zero, List.getElem?_eq_getElem (by omega)]
      rfl
  · rw [if_neg (fun h => hy h.1), if_neg (fun h => hy h.1), if_neg hy]

/-- The entries of a menu. -/
theorem draw_entries {rows : List Str} {g : Glass} (hg : Ready g) {selected i : Nat} (hs : ∀ s ∈ rows, (∀ c ∈ s, OneCell c) ∧ s.length ≤ g.width)
    (hi : i + rows.length < g.height) :
    Ready (g.drawAll (entryDraws selected i rows)) ∧ (g.drawAll (entryDraws selected i rows)).width = g.width ∧
    (g.drawAll (entryDraws selected i rows)).height = g.height ∧
    ∀ y, ∀ x < g.width, (g.drawAll (entryDraws selected i rows)).cells y x =
      if i < y then match rows[y - 1 - i]? with
        | some s => (((s.take (g.width - 1)).map (⟨·, decide (y - 1 = selected)⟩ : Char → Cell))[x]?).getD .blank
        | none => g.cells y x
      else g.cells y x := by
  induction rows generalizing g i with
  | nil =>
    refine ⟨hg, rfl, rfl, fun y x _ => ?_⟩
    show g.cells y x = _
    simp
  | cons s ss ih =>
    rw [List.length_cons] at hi
    obtain ⟨a1, a2⟩ := hs s List.mem_cons_self
    obtain ⟨i1, i2, i3, i4⟩ := draw_entry hg (rev := decide (i = selected)) a1 a2 (by omega : i + 1 < g.height)
    generalize hg1 : g.drawAll [.at 0 (i + 1) (decide (i = selected)) s, .clearRest] = g1 at i1 i2 i3 i4
    obtain ⟨j1, j2, j3, j4⟩ := ih i1 (i := i + 1) (fun t ht => by rw [i2]; exact hs t (List.mem_cons_of_mem _ ht)) (by rw [i3]; omega)
    have e : g.drawAll (entryDraws selected i (s :: ss)) = g1.drawAll (entryDraws selected (i + 1) ss) := by
      rw [← hg1]
      unfold entryDraws drawAll
      rw [List.zipIdx_cons, List.flatMap_cons, List.foldl_append]
    rw [e]
    refine ⟨j1, j2.trans i2, j3.trans i3, fun y x hx => ?_⟩
    rw [j4 y x (by rw [i2]; exact hx), i2, i4 y x hx]
    by_cases h1 : i + 1 < y
    · rw [if_pos h1, if_neg (show ¬ y = i + 1 by omega), if_pos (show i < y by omega), show y - 1 - i = (y - 1 - (i + 1)) + 1 by omega, List.getElem?_cons_succ]
    · rw [if_neg h1]
      by_cases h2 : y = i + 1
      · subst h2
        rw [if_pos rfl, if_pos (show i < i + 1 by omega), show i + 1 - 1 - i = 0 by omega]
        rfl
      · rw [if_neg h2, if_neg (show ¬ i < y by omega)]

end C109

/-- C109: a menu that is drawn is what the user reads: its title and what was typed, in reversed video, on the first row; below, one
entry per row, cut one column before the right edge, and the highlighted one in reversed video; the other rows are empty. -/
theorem C109_menu {g : Glass} (hg : Ready g) (hh : g.height ≤ 65535) {m : RemoteMenu T}
    (ht : ∀ c ∈ m.title ++ m.search, c.val < 128 ∧ OneCell c) (hc : ∀ e ∈ m.entries, CleanText p e.text) {ds : List Draw}
    (h : drawMenu p g.width g.height m = .ok ds) (h1 : 1 ≤ g.height) :
    Ready (g.drawAll ds) ∧ (g.drawAll ds).width = g.width ∧ (g.drawAll ds).height = g.height ∧
    Reads (g.drawAll ds) 0 ((m.title ++ str!":" ++ m.search ++ List.replicate g.width ' ').take g.width) true ∧
    ∀ i, i + 1 < g.height → Reads (g.drawAll ds) (i + 1)
      (match m.entries[i]? with | some e => (p.plain e.text).take (g.width - 1) | none => []) (decide (i = m.selected)) := by
  obtain ⟨top, rows, rfl, ⟨n, et⟩, hlen, hf⟩ := C74_drawn hh h
  have hw := hg.width
  have htop : ∀ c ∈ top, c.val < 128 ∧ OneCell c := by
    intro c hcs
    rw [et] at hcs
    simp only [List.mem_append, List.mem_replicate] at hcs
    rcases hcs with ((h | h) | h) | ⟨_, h⟩
    · exact ht c (List.mem_append_left _ h)
    · have : c = ':' := by simpa using h
      rw [this]; exact ⟨by decide, by unfold OneCell; decide⟩
    · exact ht c (List.mem_append_right _ h)
    · rw [h]; exact ⟨by decide, by unfold OneCell; decide⟩
  have hl : top.length = g.width := by rw [← byteLen_ascii fun c hcs => (htop c hcs).1]; exact hlen
  have et2 : (m.title ++ str!":" ++ m.search ++ List.replicate g.width ' ').take g.width = top := by
    rw [et] at hl ⊢
    rw [List.length_append, List.length_replicate] at hl
    rw [List.take_append, List.take_of_length_le (by omega), List.take_replicate]
    congr 2
    omega
  have he : Ready g.erase := ⟨hw, hg.height, hg.reading, hg.reversed⟩
  obtain ⟨i1, i2, i3, _, _, _, i7⟩ := draw_at he (x := 0) (y := 0) (rev := true) (s := top)
    (shows_reversed (shows_plain true fun c hcs => (htop c hcs).2)) hw (by rw [List.length_map, hl]; show 0 + g.width ≤ g.width; omega)
  generalize hg1 : g.erase.draw (.at 0 0 true top) = g1 at i1 i2 i3 i7
  have i2 : g1.width = g.width := i2
  have i3 : g1.height = g.height := i3
  have e : g.drawAll ([.clear, .at 0 0 true top] ++ entryDraws m.selected 0 rows) = g1.drawAll (entryDraws m.selected 0 rows) := by
    rw [← hg1]; rfl
  have hrows : rows = (m.entries.take (g.height - 1)).map fun e => (p.plain e.text).take g.width := by
    have : ∀ (es : List (RemoteEntry T)) (rs : List Str), (∀ e ∈ es, CleanText p e.text) → List.Forall₂ (EntryShown p g.width) es rs →
        rs = es.map fun e => (p.plain e.text).take g.width := by
      intro es rs hce hff
      induction hff with
      | nil => rfl
      | cons h _ ih =>
        rw [List.map_cons, ← ih fun e he => hce e (List.mem_cons_of_mem _ he), ← C74_entry (hce _ List.mem_cons_self).toPlainText h]
    exact this _ _ (fun e he => hc e (List.mem_of_mem_take he)) hf
  have hrl : rows.length ≤ g.height - 1 := by rw [hrows, List.length_map, List.length_take]; omega
  obtain ⟨j1, j2, j3, j4⟩ := draw_entries i1 (selected := m.selected) (i := 0) (rows := rows) (by
    intro s hs
    rw [hrows] at hs
    obtain ⟨e, he, rfl⟩ := List.mem_map.mp hs
    refine ⟨fun c hcs => (hc e (List.mem_of_mem_take he)).oneCell c (List.mem_of_mem_take hcs), ?_⟩
    rw [List.length_take, i2]; omega) (by rw [i3]; omega)
  rw [e, et2]
  refine ⟨j1, j2.trans i2, j3.trans i3, fun x hx => ?_, fun i hi x hx => ?_⟩
  · rw [j2, i2] at hx
    rw [j4 0 x (by rw [i2]; exact hx), if_neg (by omega), i7, if_pos ⟨by omega, Nat.zero_le _⟩, Nat.sub_zero, List.getElem?_map,
      List.getElem?_eq_getElem (by omega), dif_pos (by omega)]
    rfl
  · rw [j2, i2] at hx
    rw [j4 (i + 1) x (by rw [i2]; exact hx), if_pos (by omega), i2]
    have e1 : rows[i + 1 - 1 - 0]? = (m.entries[i]?).map fun e => (p.plain e.text).take g.width := by
      rw [hrows, List.getElem?_map, List.getElem?_take]
      rw [if_pos (by omega)]
      rfl
    rw [e1]
    cases hm : m.entries[i]? with
    | none =>
      show g1.cells (i + 1) x = _
      rw [i7, if_neg (by omega)]
      simp [erase]
    | some en =>
      show (((((p.plain en.text).take g.width).take (g.width - 1)).map (⟨·, decide (i + 1 - 1 = m.selected)⟩ : Char → Cell))[x]?).getD Cell.blank = _
      rw [List.take_take, show min (g.width - 1) g.width = g.width - 1 by omega, List.getElem?_map]
      show _ = if h : x < ((p.plain en.text).take (g.width - 1)).length then _ else _
      split
      · rename_i h; rw [List.getElem?_eq_getElem h]; rfl
      · rename_i h; rw [List.getElem?_eq_none (by omega)]; rfl

/-- C109 is false of an entry as wide as the glass, or wider: its letter in the last column is erased again. -/
theorem C109_entry_refuted {g : Glass} (hg : Ready g) (hh : g.height ≤ 65535) {m : RemoteMenu T}
    (ht : ∀ c ∈ m.title ++ m.search, c.val < 128 ∧ OneCell c) (hc : ∀ e ∈ m.entries, CleanText p e.text) {ds : List Draw}
    (h : drawMenu p g.width g.height m = .ok ds) (h1 : 1 ≤ g.height) {i : Nat} {e : RemoteEntry T} (hi : i + 1 < g.height)
    (he : m.entries[i]? = some e) (hl : g.width ≤ (p.plain e.text).length) :
    (g.drawAll ds).cells (i + 1) (g.width - 1) = Cell.blank ∧ ∃ c, (p.plain e.text)[g.width - 1]? = some c := by
  obtain ⟨_, h2, _, _, h3⟩ := C109_menu hg hh ht hc h h1
  have hw := hg.width
  have := h3 i hi (g.width - 1) (by rw [h2]; omega)
  rw [this]
  simp only [he]
  exact ⟨dif_neg (by rw [List.length_take]; omega), _, List.getElem?_eq_getElem (by omega)⟩

namespace C109

/-- Lines drawn one below the other, over what is there. -/
theorem draw_lines {ls : List T} {g : Glass} (hg : Ready g) {x0 y0 : Nat} (hx0 : x0 < g.width)
    (hc : ∀ l ∈ ls, LegibleText p l ∧ x0 + (p.plain l).length ≤ g.width) (hy : y0 + ls.length ≤ g.height) :
    Ready (g.drawAll ((ls.zipIdx y0).map fun l => .at x0 l.2 true (p.render l.1))) ∧
    (g.drawAll ((ls.zipIdx y0).map fun l => .at x0 l.2 true (p.render l.1))).width = g.width ∧
    (g.drawAll ((ls.zipIdx y0).map fun l => .at x0 l.2 true (p.render l.1))).height = g.height ∧
    ∀ y x, (g.drawAll ((ls.zipIdx y0).map fun l => .at x0 l.2 true (p.render l.1))).cells y x =
      if y0 ≤ y ∧ x0 ≤ x then match ls[y - y0]? with
        | some l => (((p.plain l).map (⟨·, true⟩ : Char → Cell))[x - x0]?).getD (g.cells y x)
        | none => g.cells y x
      else g.cells y x := by
  induction ls generalizing g y0 with
  | nil => exact ⟨hg, rfl, rfl, fun y x => by show g.cells y x = _; simp⟩
  | cons l ls ih =>
    obtain ⟨a1, a2⟩ := hc l List.mem_cons_self
    rw [List.length_cons] at hy
    obtain ⟨i1, i2, i3, _, _, _, i7⟩ := draw_at hg (x := x0) (y := y0) (rev := true) (s := p.render l)
      (shows_reversed (shows_plain true (by rw [a1.render]; exact a1.oneCell))) hx0 (by rw [List.length_map, a1.render]; exact a2)
    have hmin : min y0 (g.height - 1) = y0 := by omega
    rw [hmin, a1.render] at i7
    have e : g.drawAll (((l :: ls).zipIdx y0).map fun l => .at x0 l.2 true (p.render l.1)) =
        (g.draw (.at x0 y0 true (p.render l))).drawAll ((ls.zipIdx (y0 + 1)).map fun l => .at x0 l.2 true (p.render l.1)) := by
      rw [List.zipIdx_cons]; rfl
    rw [e]
    rw [a1.render] at *
    generalize hg1 : g.draw (.at x0 y0 true (p.plain l)) = g1 at i1 i2 i3 i7 e ⊢
    obtain ⟨j1, j2, j3, j4⟩ := ih i1 (y0 := y0 + 1) (by rw [i2]; exact hx0)
      (fun l hl => by rw [i2]; exact hc l (List.mem_cons_of_mem _ hl)) (by rw [i3]; omega)
    refine ⟨j1, j2.trans i2, j3.trans i3, fun y x => ?_⟩
    rw [j4, i7]
    by_cases hx : x0 ≤ x
    · by_cases h1 : y = y0
      · subst h1
        rw [if_neg (show ¬ (y + 1 ≤ y ∧ x0 ≤ x) by omega), if_pos ⟨rfl, hx⟩, if_pos ⟨Nat.le_refl _, hx⟩, Nat.sub_self]
        rfl
      · rw [if_neg (show ¬ (y = y0 ∧ x0 ≤ x) from fun h => h1 h.1)]
        by_cases h2 : y0 ≤ y
        · rw [if_pos (show y0 + 1 ≤ y ∧ x0 ≤ x by omega), if_pos ⟨h2, hx⟩, show y - y0 = (y - (y0 + 1)) + 1 by omega,
            List.getElem?_cons_succ]
        · rw [if_neg (by omega), if_neg (by omega)]
    · rw [if_neg (by omega), if_neg (by omega), if_neg (by omega)]

end C109

/-- C109: a hint that is drawn is what the user reads in the lower right corner, in reversed video; nothing else changes. -/
theorem C109_hint {g : Glass} (hg : Ready g) (hh : g.height ≤ 65535) (hw : g.width ≤ 65535) {hint : List T} {first : T}
    {rest : List T} (hl : hint = first :: rest) (hc : ∀ l ∈ hint, LegibleText p l ∧ (p.plain l).length ≤ (p.plain first).length)
    (h0 : 0 < (p.plain first).length) (hx : (p.plain first).length ≤ g.width) (hy : hint.length ≤ g.height) :
    ∃ ds, drawHint p g.width g.height hint = .ok ds ∧ Ready (g.drawAll ds) ∧
    ∀ y x, (g.drawAll ds).cells y x =
      if g.height - hint.length ≤ y ∧ g.width - (p.plain first).length ≤ x then match hint[y - (g.height - hint.length)]? with
        | some l => (((p.plain l).map (⟨·, true⟩ : Char → Cell))[x - (g.width - (p.plain first).length)]?).getD (g.cells y x)
        | none => g.cells y x
      else g.cells y x := by
  refine ⟨_, C75_drawn hl hh hw hx hy, ?_⟩
  obtain ⟨i1, _, _, i4⟩ := draw_lines (p := p) hg (x0 := g.width - (p.plain first).length) (y0 := g.height - hint.length) (ls := hint)
    (by omega) (fun l hl => ⟨(hc l hl).1, by have := (hc l hl).2; omega⟩) (by omega)
  exact ⟨i1, i4⟩

/-- C109: status lines that fit, drawn over a view or a menu, change only the last row. -/
theorem C109_kept {g : Glass} (hg : Ready g) {ds : List Draw}
    (h : ∀ d ∈ ds, ∃ text, d = .at 0 g.height true text ∧ (∀ c ∈ text, OneCell c) ∧ text.length ≤ g.width) :
    Ready (g.drawAll ds) ∧ (g.drawAll ds).width = g.width ∧ (g.drawAll ds).height = g.height ∧
    ∀ y, y + 1 < g.height → ∀ x, (g.drawAll ds).cells y x = g.cells y x := by
  induction ds generalizing g with
  | nil => exact ⟨hg, rfl, rfl, fun _ _ _ => rfl⟩
  | cons d ds ih =>
    obtain ⟨text, rfl, h1, h2⟩ := h d List.mem_cons_self
    obtain ⟨i1, i2, i3, _, _, _, i7⟩ := draw_at hg (x := 0) (y := g.height) (rev := true) (s := text)
      (shows_reversed (shows_plain true h1)) hg.width (by rw [List.length_map]; omega)
    have e : g.drawAll (.at 0 g.height true text :: ds) = (g.draw (.at 0 g.height true text)).drawAll ds := rfl
    rw [e]
    obtain ⟨j1, j2, j3, j4⟩ := ih i1 (fun d hd => by rw [i2, i3]; exact h d (List.mem_cons_of_mem _ hd))
    refine ⟨j1, j2.trans i2, j3.trans i3, fun y hy x => ?_⟩
    rw [j4 y (by rw [i3]; exact hy), i7, if_neg (by omega)]

/-- A glass of some size, with nothing on it. -/
def emptyGlass (width height : Nat) : Glass :=
  { width, height, cells := fun _ _ => .blank, x := 0, y := 0, wrap := false, reversed := false, reading := .ground }

/-- A row of the glass, as letters. -/
def letters (g : Glass) (y : Nat) : Str := (List.range g.width).map fun x => (g.cells y x).letter

/-- A view of one buffer with these lines. -/
def viewOf (lines : List Str) : ConnectionState (List (Str × Face)) :=
  { (Connection.new : Connection (List (Str × Face))).state with
    view := [{ buffer := str!"f", start := 1, stop := 2, lenses := [{ firstLineNum := 1, lines := lines.map fun l => [(l, .default)] }] }] }

/-- What is read when it is drawn on an empty glass of 14 columns and 6 rows. -/
def readOf (s : ConnectionState (List (Str × Face))) : Option (List Str) :=
  (drawView bare 14 6 s).toOption.map fun ds => (List.range 6).map (letters ((emptyGlass 14 6).drawAll ds))

/-- C109_view and C109_one apply: three lines, one of which is cut. -/
example : readOf (viewOf [str!"fn main() {", str!"    println!()", str!"} // the end of it"]) =
    some [str!"-[f][1:2]-----", str!"fn main() {   ", str!"    println!()", str!"} // the end o", str!"              ",
      str!"              "] := by decide +kernel

theorem clean_plain {s : Str} (h : ∀ c ∈ s, c.val < 128 ∧ OneCell c) : CleanText bare [(s, .default)] := by
  have e : bare.plain [(s, .default)] = s := by simp [bare]
  exact { ascii := (by rw [e]; exact fun c hc => (h c hc).1), len := rfl, render := rfl, renderMenu := rfl,
          oneCell := (by rw [e]; exact fun c hc => (h c hc).2) }

/-- The hypotheses of C109_view, C109_one, C109_menu, C109_hint and C109_kept are met by such views. -/
example : Ready (emptyGlass 14 6) ∧ CleanState bare (viewOf [str!"fn main() {", str!"}"]) := by
  refine ⟨⟨by decide, by decide, rfl, rfl⟩, ⟨?_, ?_, fun i hi => (by cases hi)⟩⟩
  · intro r hr
    simp only [viewOf, rowsOf, List.flatMap_cons, List.flatMap_nil, List.append_nil, List.map_cons, List.map_nil, List.mem_cons,
      List.not_mem_nil, or_false] at hr
    rcases hr with rfl | rfl | rfl
    · intro c hc; simp only [List.mem_cons, List.not_mem_nil, or_false] at hc; subst hc; unfold OneCell; decide
    · exact clean_plain (by unfold OneCell; decide)
    · exact clean_plain (by unfold OneCell; decide)
  · exact { ascii := (by intro c hc; cases hc), len := rfl, render := rfl, renderMenu := rfl, oneCell := (by intro c hc; cases hc) }

/-- C109 is false of lines with control characters, which the client sends as they are: a tab takes more columns than it is counted
for, so that a line may go on in the next row, and what follows is a row too low; a carriage return writes over what precedes it;
and a text can erase the screen. -/
theorem C109_control_refuted :
    readOf (viewOf [str!"\tif x {}", str!"b", str!"c"]) =
      some [str!"-[f][1:2]-----", str!"        if x {", str!"}             ", str!"b             ", str!"c             ",
        str!"              "] ∧
    readOf (viewOf [str!"ab\rc", str!"d"]) =
      some [str!"-[f][1:2]-----", str!"cb            ", str!"d             ", str!"              ", str!"              ",
        str!"              "] ∧
    readOf (viewOf [str!"\x1b[2Ja", str!"d"]) =
      some [str!"              ", str!"a             ", str!"d             ", str!"              ", str!"              ",
        str!"              "] := by decide +kernel

/-- C109_message_refuted applies: a message of 20 letters; the header is gone. -/
example : (drawView bare 14 6 { viewOf [str!"a", str!"b"] with echo := some [(str!"this is a long error", .error)] }).toOption.map
      (fun ds => (List.range 6).map (letters ((emptyGlass 14 6).drawAll ds))) =
    some [str!"a             ", str!"b             ", str!"              ", str!"              ", str!"this is a long",
      str!" error        "] := by decide +kernel

/-- A menu of two entries, the second of which is as wide as the glass. -/
def menuOf : RemoteMenu (List (Str × Face)) :=
  { command := str!"open", title := str!"file", search := str!"a",
    entries := [{ value := str!"a", text := [(str!"a.rs", .default)], description := none },
      { value := str!"b", text := [(str!"src/abcdefg.rs", .default)], description := none }], selected := 1 }

/-- C109_menu and C109_entry_refuted apply. -/
example : (drawMenu bare 14 6 menuOf).toOption.map
      (fun ds => (List.range 4).map (letters ((emptyGlass 14 6).drawAll ds))) =
    some [str!"file:a        ", str!"a.rs          ", str!"src/abcdefg.r ", str!"              "] := by decide +kernel

/-- The hint of the program (the places to go to, scripts/keys.lua:123, editor.lua:69). -/
def gotoHint : List (List (Str × Face)) :=
  [[(str!"╭─ move to ─────╮", .default)], [(str!"│ h: line begin │", .default)], [(str!"│ l: line end   │", .default)],
    [(str!"╰───────────────╯", .default)]]

/-- C109_hint applies. -/
example : (drawHint bare 24 7 gotoHint).toOption.map (fun ds => (List.range 7).map (letters ((emptyGlass 24 7).drawAll ds))) =
    some [str!"                        ", str!"                        ", str!"                        ",
      str!"       ╭─ move to ─────╮", str!"       │ h: line begin │", str!"       │ l: line end   │", str!"       ╰───────────────╯"] := by
  decide +kernel

/-- Its hypotheses are met by this hint. -/
example : ∀ l ∈ gotoHint, LegibleText bare l ∧ (bare.plain l).length ≤ 17 := by
  intro l hl
  refine ⟨⟨rfl, fun c hc => ?_⟩, ?_⟩
  · have : ∀ l ∈ gotoHint, ∀ c ∈ bare.plain l, ¬ (c.toNat < 32 ∨ (127 ≤ c.toNat ∧ c.toNat < 160)) := by decide +kernel
    exact this l hl c hc
  · have : ∀ l ∈ gotoHint, (bare.plain l).length ≤ 17 := by decide +kernel
    exact this l hl

end Ced.Props

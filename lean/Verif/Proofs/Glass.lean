import Verif.Spec.Glass

/-! # The terminal, text by text -/

namespace Ced
open Spec

theorem control_iff {c : Char} : Glass.control c = false ↔ OneCell c := by
  unfold Glass.control OneCell
  simp only [Bool.or_eq_false_iff, Bool.and_eq_false_iff, decide_eq_false_iff_not]
  omega

namespace Glass

/-- The column that the next character takes, counted from the row of the cursor on. -/
def col (g : Glass) : Nat := if g.wrap then g.x + 1 else g.x

/-- The cursor is on the screen. -/
structure At (g : Glass) : Prop where
  x : g.x < g.width
  y : g.y < g.height
  wrap : g.wrap = true → g.x + 1 = g.width

theorem print_append (g : Glass) (s t : Str) : g.print (s ++ t) = (g.print s).print t := List.foldl_append ..
theorem print_nil (g : Glass) : g.print [] = g := rfl
theorem print_cons (g : Glass) (c : Char) (s : Str) : g.print (c :: s) = (g.type c).print s := rfl

theorem digit_code {c : Char} (h : c.isDigit = true ∨ c = ';') : c.toNat < 64 := by
  rcases h with h | rfl
  · simp only [Char.isDigit, Bool.and_eq_true, decide_eq_true_eq] at h
    have := h.2
    have h9 : c.val.toNat ≤ 57 := this
    show c.val.toNat < 64
    omega
  · decide

theorem print_params (g : Glass) (acc ps : Str) (hr : g.reading = .params acc) (h : ∀ c ∈ ps, c.isDigit = true ∨ c = ';') :
    g.print ps = { g with reading := .params (acc ++ ps) } := by
  induction ps generalizing g acc with
  | nil => rw [List.append_nil, ← hr]; rfl
  | cons c ps ih =>
    have hc := digit_code (h c List.mem_cons_self)
    rw [print_cons]
    have : g.type c = { g with reading := .params (acc ++ [c]) } := by
      unfold type
      rw [hr]
      simp only
      rw [if_neg (by omega)]
    rw [this, ih _ (acc ++ [c]) rfl (fun d hd => h d (List.mem_cons_of_mem _ hd))]
    simp

/-- A complete attribute. -/
theorem print_attribute (g : Glass) (ps : Str) (hr : g.reading = .ground) (h : ∀ c ∈ ps, c.isDigit = true ∨ c = ';') :
    g.print ('\x1b' :: '[' :: ps ++ ['m']) = { g with reversed := reversal ps g.reversed } := by
  have e1 : g.type '\x1b' = { g with reading := .escape } := by unfold type; rw [hr]; rfl
  have e2 : ({ g with reading := .escape } : Glass).type '[' = { g with reading := .params [] } := by unfold type; rfl
  rw [List.cons_append, List.cons_append, print_cons, e1, print_cons, e2, print_append,
    print_params { g with reading := .params [] } [] ps rfl h, print_cons, print_nil]
  unfold type
  simp only [List.nil_append]
  rw [if_pos (by decide), if_pos trivial]
  simp [hr]

theorem type_printable (g : Glass) {c : Char} (hr : g.reading = .ground) (hc : OneCell c) : g.type c = g.put c := by
  have hn := control_iff.mpr hc
  unfold OneCell at hc
  have ne : ∀ d : Char, d.toNat < 32 → c ≠ d := fun d hd e => hc (.inl (e ▸ hd))
  unfold type
  rw [hr]
  simp only
  rw [if_neg (ne _ (by decide)), if_neg (ne _ (by decide)), if_neg (ne _ (by decide)), if_neg (ne _ (by decide)),
    if_neg (ne _ (by decide)), if_neg (by simp [hn])]

/-- What a text that fits on the rest of the row does. -/
theorem print_shows {r r' : Bool} {s : Str} {l : List Cell} (h : Displays r s l r') {g : Glass} (hg : g.reading = .ground)
    (hr : g.reversed = r) (ha : At g) (hl : col g + l.length ≤ g.width) :
    (g.print s).reading = .ground ∧ (g.print s).reversed = r' ∧ At (g.print s) ∧ (g.print s).width = g.width ∧
    (g.print s).height = g.height ∧ (g.print s).y = g.y ∧ col (g.print s) = col g + l.length ∧
    ∀ y x, (g.print s).cells y x = if y = g.y ∧ col g ≤ x then (l[x - col g]?).getD (g.cells y x) else g.cells y x := by
  have attr : ∀ (ps s : Str), '\x1b' :: '[' :: ps ++ 'm' :: s = ('\x1b' :: '[' :: ps ++ ['m']) ++ s := by simp
  induction h generalizing g with
  | nil => exact ⟨hg, hr, ha, rfl, rfl, rfl, rfl, fun y x => by simp [print_nil]⟩
  | @letter r c s l r' hc _ ih =>
    rw [List.length_cons] at hl
    have hw : g.wrap = false := by
      cases hw : g.wrap with
      | false => rfl
      | true => have := ha.wrap hw; simp only [col, hw, if_true] at hl; omega
    have hcol : col g = g.x := by simp [col, hw]
    have hx : g.x < g.width := ha.x
    have e : g.type c = g.write c := by rw [type_printable g hg hc, put]; simp [hw]
    have ha' : At (g.write c) := by
      constructor
      · show (if g.x + 1 = g.width then g.x else g.x + 1) < g.width
        split <;> omega
      · exact ha.y
      · intro hw'
        have hw' : g.x + 1 = g.width := by simpa [write] using hw'
        show (if g.x + 1 = g.width then g.x else g.x + 1) + 1 = g.width
        rw [if_pos hw', hw']
    have hcol' : col (g.write c) = g.x + 1 := by
      show (if decide (g.x + 1 = g.width) = true then (if g.x + 1 = g.width then g.x else g.x + 1) + 1
        else (if g.x + 1 = g.width then g.x else g.x + 1)) = g.x + 1
      by_cases h1 : g.x + 1 = g.width
      · rw [if_pos (by simpa using h1), if_pos h1]
      · rw [if_neg (by simpa using h1), if_neg h1]
    obtain ⟨i1, i2, i3, i4, i5, i6, i7, i8⟩ := ih (g := g.write c) hg hr ha' (by rw [hcol']; show g.x + 1 + l.length ≤ g.width; omega)
    rw [print_cons, e]
    refine ⟨i1, i2, i3, i4, i5, i6, by rw [i7, hcol', hcol, List.length_cons]; omega, fun y x => ?_⟩
    rw [i8, hcol', hcol]
    show (if y = g.y ∧ g.x + 1 ≤ x then (l[x - (g.x + 1)]?).getD ((g.write c).cells y x) else (g.write c).cells y x) = _
    have ec : (g.write c).cells y x = if y = g.y ∧ x = g.x then ⟨c, g.reversed⟩ else g.cells y x := rfl
    rw [ec]
    by_cases hy : y = g.y
    · by_cases h1 : x = g.x
      · subst h1
        rw [if_neg (by omega), if_pos ⟨hy, rfl⟩, if_pos ⟨hy, Nat.le_refl _⟩, hr]
        simp
      · by_cases h2 : g.x ≤ x
        · have h3 : x - g.x = (x - (g.x + 1)) + 1 := by omega
          rw [if_pos ⟨hy, by omega⟩, if_neg (fun h => h1 h.2), if_pos ⟨hy, h2⟩, h3]
          simp
        · rw [if_neg (by omega), if_neg (fun h => h1 h.2), if_neg (by omega)]
    · rw [if_neg (fun h => hy h.1), if_neg (fun h => hy h.1), if_neg (fun h => hy h.1)]
  | @on r s l r' _ ih =>
    have e : g.print (str!"\x1b[7m" ++ s) = ({ g with reversed := true } : Glass).print s := by
      have := print_attribute g ['7'] hg (by simp +decide)
      show g.print (('\x1b' :: '[' :: ['7'] ++ ['m']) ++ s) = _
      rw [print_append, this]
      rfl
    rw [e]
    exact ih (g := { g with reversed := true }) hg rfl ⟨ha.x, ha.y, ha.wrap⟩ hl
  | @off r s l r' _ ih =>
    have e : g.print (str!"\x1b[0m" ++ s) = ({ g with reversed := false } : Glass).print s := by
      have := print_attribute g ['0'] hg (by simp +decide)
      show g.print (('\x1b' :: '[' :: ['0'] ++ ['m']) ++ s) = _
      rw [print_append, this]
      rfl
    rw [e]
    exact ih (g := { g with reversed := false }) hg rfl ⟨ha.x, ha.y, ha.wrap⟩ hl
  | @other r ps s l r' hd h7 h0 hn _ ih =>
    have e : g.print (str!"\x1b[" ++ ps ++ 'm' :: s) = g.print s := by
      have := print_attribute g ps hg hd
      show g.print ('\x1b' :: '[' :: ps ++ 'm' :: s) = _
      rw [attr, print_append, this]
      unfold reversal
      rw [if_neg h7, if_neg (by simp [h0, hn])]
    rw [e]
    exact ih hg hr ha hl

/-- The screen shows these rows, the last of which was just written; if there are too many the first have gone. -/
structure Filled (g : Glass) (rev : Bool) (rows : List (List Cell)) : Prop where
  reading : g.reading = .ground
  reversed : g.reversed = rev
  at' : At g
  last : g.y + 1 = min rows.length g.height
  cells : ∀ y < g.height, ∀ x < g.width, g.cells y x = rowCell (rows.drop (rows.length - g.height)) y x

theorem rowCell_drop (rows : List (List Cell)) (k y x : Nat) : rowCell (rows.drop k) y x = rowCell rows (k + y) x := by
  unfold rowCell; rw [List.getElem?_drop]

theorem rowCell_left {rows : List (List Cell)} {l : List Cell} {y : Nat} (x : Nat) (h : y < rows.length) :
    rowCell (rows ++ [l]) y x = rowCell rows y x := by
  unfold rowCell; rw [List.getElem?_append_left h]

theorem rowCell_last (rows : List (List Cell)) (l : List Cell) (x : Nat) :
    rowCell (rows ++ [l]) rows.length x = (l[x]?).getD .blank := by
  unfold rowCell; rw [List.getElem?_append_right (Nat.le_refl _)]; simp

theorem rowCell_beyond {rows : List (List Cell)} {y : Nat} (x : Nat) (h : rows.length ≤ y) : rowCell rows y x = .blank := by
  unfold rowCell; rw [List.getElem?_eq_none h]; rfl

theorem type_cr {g : Glass} (hg : g.reading = .ground) : g.type '\r' = g.carriageReturn := by
  unfold type; rw [hg]; rfl
theorem type_lf {g : Glass} (hg : g.reading = .ground) : g.type '\n' = g.lineFeed := by
  unfold type; rw [hg]; rfl

/-- The next row. -/
theorem filled_next {g : Glass} {r r' : Bool} {rows : List (List Cell)} (hf : Filled g r rows) {s : Str} {l : List Cell}
    (hs : Displays r s l r') (hl : l.length ≤ g.width) :
    Filled (g.print (str!"\r\n" ++ s)) r' (rows ++ [l]) ∧ (g.print (str!"\r\n" ++ s)).width = g.width ∧
      (g.print (str!"\r\n" ++ s)).height = g.height := by
  have hy := hf.at'.y
  have hlast := hf.last
  have e : g.print (str!"\r\n" ++ s) = (g.carriageReturn.lineFeed).print s := by
    show g.print ('\r' :: '\n' :: s) = _
    rw [print_cons, type_cr hf.reading, print_cons, type_lf (by exact hf.reading)]
  rw [e]
  by_cases hb : g.y + 1 = g.height
  · have e2 : g.carriageReturn.lineFeed = { g with
        x := 0, wrap := false
        cells := fun y x => if y + 1 < g.height then g.cells (y + 1) x else .blank } := by
      unfold lineFeed; rw [if_pos (by exact hb)]; rfl
    rw [e2]
    obtain ⟨i1, i2, i3, i4, i5, i6, i7, i8⟩ := print_shows hs (g := { g with
        x := 0, wrap := false
        cells := fun y x => if y + 1 < g.height then g.cells (y + 1) x else .blank }) hf.reading hf.reversed
        ⟨by have := hf.at'.x; show 0 < g.width; omega, hy, fun h => by cases h⟩
        (by show 0 + l.length ≤ g.width; omega)
    refine ⟨⟨i1, i2, i3, ?_, ?_⟩, i4, i5⟩
    · rw [i6, i5, List.length_append]
      show g.y + 1 = min (rows.length + 1) g.height
      omega
    · intro y hy' x hx'
      rw [i5] at hy'
      rw [i4] at hx'
      rw [i8, i5, rowCell_drop]
      show (if y = g.y ∧ 0 ≤ x then (l[x - 0]?).getD (if y + 1 < g.height then g.cells (y + 1) x else .blank)
        else (if y + 1 < g.height then g.cells (y + 1) x else .blank)) = rowCell (rows ++ [l]) ((rows ++ [l]).length - g.height + y) x
      have hy' : y < g.height := hy'
      have hx' : x < g.width := hx'
      rw [List.length_append, List.length_singleton]
      by_cases h1 : y = g.y
      · rw [if_pos ⟨h1, Nat.zero_le _⟩, if_neg (by omega), show rows.length + 1 - g.height + y = rows.length by omega, rowCell_last]
        rfl
      · rw [if_neg (fun h => h1 h.1), if_pos (by omega), hf.cells _ (by omega) x hx', rowCell_drop, rowCell_left x (by omega),
          show rows.length - g.height + (y + 1) = rows.length + 1 - g.height + y by omega]
  · have e2 : g.carriageReturn.lineFeed = { g with x := 0, y := g.y + 1, wrap := false } := by
      unfold lineFeed; rw [if_neg (by exact hb)]; rfl
    rw [e2]
    obtain ⟨i1, i2, i3, i4, i5, i6, i7, i8⟩ := print_shows hs (g := { g with x := 0, y := g.y + 1, wrap := false }) hf.reading hf.reversed
        ⟨by have := hf.at'.x; show 0 < g.width; omega, by show g.y + 1 < g.height; omega, fun h => by cases h⟩
        (by show 0 + l.length ≤ g.width; omega)
    refine ⟨⟨i1, i2, i3, ?_, ?_⟩, i4, i5⟩
    · rw [i6, i5, List.length_append]
      show g.y + 1 + 1 = min (rows.length + 1) g.height
      omega
    · intro y hy' x hx'
      rw [i5] at hy'
      rw [i4] at hx'
      have hy' : y < g.height := hy'
      have hx' : x < g.width := hx'
      rw [i8, i5, rowCell_drop]
      show (if y = g.y + 1 ∧ 0 ≤ x then (l[x - 0]?).getD (g.cells y x) else g.cells y x) =
        rowCell (rows ++ [l]) ((rows ++ [l]).length - g.height + y) x
      rw [List.length_append, List.length_singleton, hf.cells y hy' x hx', rowCell_drop]
      have h0 : rows.length = g.y + 1 := by omega
      rw [show rows.length - g.height + y = y by omega, show rows.length + 1 - g.height + y = y by omega]
      by_cases h1 : y = g.y + 1
      · rw [if_pos ⟨h1, Nat.zero_le _⟩, rowCell_beyond x (by omega), h1, ← h0, rowCell_last]
        rfl
      · rw [if_neg (fun h => h1 h.1)]
        by_cases h2 : y < rows.length
        · rw [rowCell_left x h2]
        · rw [rowCell_beyond x (by omega), rowCell_beyond x (by rw [List.length_append, List.length_singleton]; omega)]

/-- Rows that are written one after the other; what one leaves is what the next one starts with. -/
inductive RowsDrawn (w : Nat) : Bool → List Str → List (List Cell) → Bool → Prop
  | nil {r} : RowsDrawn w r [] [] r
  | cons {r s l r' ss ls r''} : Displays r s l r' → l.length ≤ w → RowsDrawn w r' ss ls r'' → RowsDrawn w r (s :: ss) (l :: ls) r''

theorem RowsDrawn.clean {w : Nat} {content : List Str} {ls : List (List Cell)}
    (h : List.Forall₂ (fun s l => Displays false s l false ∧ l.length ≤ w) content ls) : RowsDrawn w false content ls false := by
  induction h with
  | nil => exact .nil
  | cons h _ ih => exact .cons h.1 h.2 ih

/-- Many rows. -/
theorem filled_rows {content : List Str} {ls : List (List Cell)} {g : Glass} {r r' : Bool} {rows : List (List Cell)}
    (hf : Filled g r rows) (h : RowsDrawn g.width r content ls r') :
    Filled (g.print (content.flatMap fun s => str!"\r\n" ++ s)) r' (rows ++ ls) ∧
      (g.print (content.flatMap fun s => str!"\r\n" ++ s)).width = g.width ∧
      (g.print (content.flatMap fun s => str!"\r\n" ++ s)).height = g.height := by
  induction content generalizing g rows ls r with
  | nil => cases h; rw [List.append_nil]; exact ⟨hf, rfl, rfl⟩
  | cons s ss ih =>
    cases h with
    | cons h1 hl h2 =>
      rename_i l r1 ls
      obtain ⟨j1, j2, j3⟩ := filled_next hf h1 hl
      obtain ⟨k1, k2, k3⟩ := ih j1 (by rw [j2]; exact h2)
      rw [List.flatMap_cons, print_append]
      rw [List.append_assoc, List.singleton_append] at k1
      exact ⟨k1, k2.trans j2, k3.trans j3⟩

end Glass
end Ced

import Verif.Proofs.Motion
import Verif.Props.Editing

/-!
# Properties of coordinates and of cursor motion: C14, C15, C17–C21, C23

`At s o n c`, `Lands s n tc o`, `ClusterAt`: in `Spec/Coords.lean`.  `seg` is the segmentation into grapheme
clusters of the external crate; `IsSegmentation` is what is assumed of it.
-/

namespace Ced.Props
open Spec PieceTable

/-! ## Concrete data -/

/-- one cluster per byte -/
def bytewise : Segmentation := fun l => l.map fun b => [b]

theorem bytewise_ok : IsSegmentation bytewise where
  flatten := flatten_singletons
  nonempty := by intro l g h; simp only [bytewise, List.mem_map] at h; obtain ⟨b, _, rfl⟩ := h; simp
  ascii := fun _ _ _ => rfl

/-- `"ab\n\nc\n"` -/
def textA : Bytes := [97, 98, 10, 10, 99, 10]
def TA : PieceTable := PieceTable.withText textA
theorem TA_forward : ForwardHistory TA := .withText (by simp [textA]) trivial
theorem TA_shows : Shows TA textA := (shows_iff (reachable_ready TA_forward).wf).2 (by decide)
theorem textA_ascii : Ascii textA := by unfold Ascii; decide
theorem textA_ends : EndsWithNewline textA := by unfold EndsWithNewline; decide

/-- `"aXYb\ncd"` (after an edit) -/
theorem T1_shows : Shows T1 [97, 88, 89, 98, 10, 99, 100] :=
  (shows_iff (reachable_ready T1_forward).wf).2 (by decide)

/-! ## C14 -/

/-- C14: in a buffer holding an ASCII text, every offset inside the text is converted to its line and column,
and these back to the offset. -/
theorem C14_roundtrip {t : PieceTable} (h : SteadyHistory t) {s : Bytes} (hs : Shows t s) (ha : Ascii s)
    {seg : Segmentation} (hseg : IsSegmentation seg) {o : Nat} (ho : o < s.length) :
    ∃ n c, At s o n c ∧ t.offsetToCoord seg o = .ok (some ⟨n, c⟩) ∧ t.coordToOffset seg ⟨n, c⟩ = .ok (some o) := by
  have hw := (reachable_ready (steady_any h)).wf
  have hn := steady_newlines h
  have hc := (shows_iff hw).1 hs
  subst hc
  obtain ⟨n, c, hat⟩ := at_exists ho
  exact ⟨n, c, hat, offsetToCoord_ascii hw hn hseg ha ho hat, coordToOffset_ascii hw hn hseg ha hat⟩

/-- C14: offsets past the end have no coordinates, whatever the text. -/
theorem C14_past {t : PieceTable} (h : AnyHistory t) {s : Bytes} (hs : Shows t s)
    (seg : Segmentation) {o : Nat} (ho : s.length ≤ o) (h0 : 0 < o) : t.offsetToCoord seg o = .ok none := by
  have hw := (reachable_ready h).wf
  have hc := (shows_iff hw).1 hs
  subst hc
  exact offsetToCoord_past hw ho h0

/-- C14: with any characters, the round trip holds for the start of every character of the second line and of
those after it. -/
theorem C14_roundtrip_later_lines {t : PieceTable} (h : SteadyHistory t) {s : Bytes} (hs : Shows t s)
    {seg : Segmentation} (hseg : IsSegmentation seg) {n : Nat} {pre line suf : Bytes}
    (hl : LineAt s n pre line suf) (hn1 : n ≠ 1) {c : Nat} (hc1 : 1 ≤ c) (hc2 : c ≤ (seg line).length) :
    let o := pre.length + ((seg line).take (c - 1)).flatten.length
    t.offsetToCoord seg o = .ok (some ⟨n, c⟩) ∧ t.coordToOffset seg ⟨n, c⟩ = .ok (some o) := by
  have hw := (reachable_ready (steady_any h)).wf
  have hn := steady_newlines h
  have hc := (shows_iff hw).1 hs
  subst hc
  have hlt : ((seg line).take (c - 1)).flatten.length < line.length := by
    have e : line.length = ((seg line).take (c - 1)).flatten.length + ((seg line).drop (c - 1)).flatten.length := by
      rw [← List.length_append, ← List.flatten_append, List.take_append_drop, hseg.flatten]
    have hd : (seg line).drop (c - 1) = (seg line)[c - 1]'(by omega) :: (seg line).drop (c - 1 + 1) :=
      List.drop_eq_getElem_cons (by omega)
    have hg := List.length_pos_iff.2 (hseg.nonempty line _ (List.getElem_mem (l := seg line) (n := c - 1) (by omega)))
    rw [hd, List.flatten_cons, List.length_append] at e
    omega
  constructor
  · rw [offsetToCoord_inside hw hn hl hlt, if_neg hn1,
      clusterStarts_filter (hseg.nonempty line) 0 (c - 1) _ (by omega) (by omega)]
    congr 3
    omega
  · rw [coordToOffset_at hw hn hseg hl hc1, if_pos (by omega)]

/-- C14, violated on a first line with a character of two bytes: offset 2 of `"éa\n"` (the `a`) becomes line 1,
column 3, and that becomes offset 3. -/
theorem C14_multibyte_refuted {seg : Segmentation} (h1 : seg [195, 169, 97] = [[195, 169], [97]]) :
    (PieceTable.withText [195, 169, 97, 10]).offsetToCoord seg 2 = .ok (some ⟨1, 3⟩) ∧
    (PieceTable.withText [195, 169, 97, 10]).coordToOffset seg ⟨1, 3⟩ = .ok (some 3) := by
  refine ⟨rfl, ?_⟩
  have hl : (PieceTable.withText [195, 169, 97, 10]).lineBytes 1 = .ok (some [195, 169, 97]) := by decide
  have hcnt : (PieceTable.withText [195, 169, 97, 10]).lineCount = .ok 1 := by decide
  unfold PieceTable.coordToOffset
  simp only [hl, hcnt, h1, except_bind_ok]
  rfl

example : ∃ n c, At textA 4 n c ∧ TA.offsetToCoord bytewise 4 = .ok (some ⟨n, c⟩) ∧
    TA.coordToOffset bytewise ⟨n, c⟩ = .ok (some 4) :=
  C14_roundtrip (forward_steady TA_forward) TA_shows textA_ascii bytewise_ok (by decide)
example : TA.offsetToCoord bytewise 4 = .ok (some ⟨3, 1⟩) := by decide
example : ∃ n c, At [97, 88, 89, 98, 10, 99, 100] 6 n c ∧ T1.offsetToCoord bytewise 6 = .ok (some ⟨n, c⟩) ∧
    T1.coordToOffset bytewise ⟨n, c⟩ = .ok (some 6) :=
  C14_roundtrip (forward_steady T1_forward) T1_shows (by unfold Ascii; decide) bytewise_ok (by decide)

/-! ## C15 -/

/-- C15: coordinates (from 1) are accepted exactly when they denote a character of the text or the end of one of its
lines, and then the offset is that of the start of the character, or of the end of the line. -/
theorem C15_coord_to_offset {t : PieceTable} (h : SteadyHistory t) {s : Bytes} (hs : Shows t s) (hne : s ≠ [])
    {seg : Segmentation} (hseg : IsSegmentation seg) {n c : Nat} (hn1 : 1 ≤ n) (hc1 : 1 ≤ c) :
    (∃ r, t.coordToOffset seg ⟨n, c⟩ = .ok r) ∧
    ∀ o, t.coordToOffset seg ⟨n, c⟩ = .ok (some o) ↔ ClusterAt seg s o n c := by
  have hw := (reachable_ready (steady_any h)).wf
  have hn := steady_newlines h
  have hc := (shows_iff hw).1 hs
  subst hc
  rcases Nat.lt_or_ge (Spec.lines t.content).length n with hlt | hge
  · rw [coordToOffset_noline hw hn hne hlt]
    refine ⟨⟨_, rfl⟩, fun o => ⟨fun e => by simp at e, ?_⟩⟩
    rintro ⟨pre, line, suf, hl, _⟩
    have := lineAt_le hl; omega
  · obtain ⟨pre, line, suf, hl⟩ := exists_line hn1 hge
    rw [coordToOffset_at hw hn hseg hl hc1]
    refine ⟨⟨_, rfl⟩, fun o => ?_⟩
    constructor
    · intro e
      split at e
      · rename_i hle
        simp only [Except.ok.injEq, Option.some.injEq] at e
        exact ⟨pre, line, suf, hl, hc1, hle, e.symm⟩
      · simp at e
    · rintro ⟨pre', line', suf', hl', _, h2, h3⟩
      obtain ⟨e1, e2, e3⟩ := hl.unique hl'
      subst e1 e2 e3
      rw [if_pos h2, h3]

/-- C15, at the excluded points: line 0 is accepted as the start of the text, and column 0 of an existing line
crashes. -/
theorem C15_zero {t : PieceTable} (h : SteadyHistory t) {s : Bytes} (hs : Shows t s) (hne : s ≠ [])
    {seg : Segmentation} {n : Nat} (hn1 : 1 ≤ n) (hn2 : n ≤ Spec.lineCount s) (c : Nat) :
    t.coordToOffset seg ⟨0, c⟩ = .ok (some 0) ∧ t.coordToOffset seg ⟨n, 0⟩ = .error .overflow := by
  have hw := (reachable_ready (steady_any h)).wf
  have hn := steady_newlines h
  have hc := (shows_iff hw).1 hs
  subst hc
  obtain ⟨pre, line, suf, hl⟩ := exists_line hn1 hn2
  refine ⟨rfl, ?_⟩
  unfold coordToOffset
  rw [if_neg (by simp; omega), lineCount_eq hw hn hne]
  simp only [except_bind_ok]
  rw [if_neg (by unfold Spec.lineCount at hn2; omega), lineBytes_at hw hn hl]
  simp only [except_bind_ok]
  rw [if_neg (by omega), subChecked_err (by omega)]
  rfl

example : TA.coordToOffset bytewise ⟨3, 2⟩ = .ok (some 5) :=
  ((C15_coord_to_offset (forward_steady TA_forward) TA_shows (by decide) bytewise_ok (by omega) (by omega)).2 5).2
    ⟨[97, 98, 10, 10], [99], [10], ⟨rfl, rfl, by decide, by decide, by decide, by decide⟩, by omega, by decide, by decide⟩

/-! ## Motions: the common part -/

theorem move_eq {t : PieceTable} (hw : t.WF) (hn : t.NewlinesOk) (ha : Ascii t.content) {seg : Segmentation}
    (hseg : IsSegmentation seg) {sel : Selection} {n c : Nat} (ho : sel.cursor < t.content.length)
    (h1 : t.content.length ≠ 1)
    (hat : At t.content sel.cursor n c) (dir : CursorTarget) (ext : Bool) {nv : Navigator}
    (hm : Navigator.move seg t ⟨⟨n, c⟩, sel.targetCol⟩ dir = .ok nv) :
    Selection.move seg t dir ext sel =
      (do let p ← nv.pos seg t
          return ⟨if ext then sel.anchor else p.offset, p.offset, nv.targetCol⟩) := by
  unfold Selection.move
  rw [hw.len_eq, if_neg h1, offsetToCoord_ascii hw hn hseg ha ho hat]
  simp only [except_bind_ok]
  rw [Navigator.navigate_ascii hw hn hseg ha hat]
  simp only [except_bind_ok, unwrapR]
  rw [hm]
  rfl

/-- the new selection after a motion that puts the cursor at `o` and remembers column `tc` -/
def moved (sel : Selection) (ext : Bool) (o tc : Nat) : Selection := ⟨if ext then sel.anchor else o, o, tc⟩

theorem move_lands {t : PieceTable} (hw : t.WF) (hn : t.NewlinesOk) (ha : Ascii t.content)
    (he : EndsWithNewline t.content) {seg : Segmentation}
    (hseg : IsSegmentation seg) {sel : Selection} {n c : Nat} (ho : sel.cursor < t.content.length)
    (h1 : t.content.length ≠ 1)
    (hat : At t.content sel.cursor n c) (dir : CursorTarget) (ext : Bool) {n' c' tc o' : Nat}
    (hm : Navigator.move seg t ⟨⟨n, c⟩, sel.targetCol⟩ dir = .ok ⟨⟨n', c'⟩, tc⟩) (hl : Lands t.content n' tc o') :
    Selection.move seg t dir ext sel = .ok (moved sel ext o' tc) := by
  rw [move_eq hw hn ha hseg ho h1 hat dir ext hm]
  obtain ⟨p, e, hp⟩ := Navigator.pos_ascii (c := c') hw hn hseg ha he hl
  rw [e]
  simp only [except_bind_ok, except_pure, hp]
  rfl

theorem lands_exists {s : Bytes} {n tc : Nat} (h1 : 1 ≤ n) (h2 : n ≤ Spec.lineCount s) (ht : 1 ≤ tc) :
    ∃ o, Lands s n tc o := by
  obtain ⟨pre, line, suf, hl⟩ := exists_line h1 h2
  exact ⟨_, pre, line, suf, hl, ht, rfl⟩

/-! ## C17 -/

/-- C17: moving right from any offset but the last goes to the next offset and remembers its column. -/
theorem C17_right {t : PieceTable} (h : SteadyHistory t) {s : Bytes} (hs : Shows t s) (ha : Ascii s)
    (he : EndsWithNewline s) {seg : Segmentation} (hseg : IsSegmentation seg) (sel : Selection) (ext : Bool)
    (ho : sel.cursor + 1 < s.length) :
    ∃ n c, At s (sel.cursor + 1) n c ∧ Selection.move seg t .right ext sel = .ok (moved sel ext (sel.cursor + 1) c) := by
  have hw := (reachable_ready (steady_any h)).wf
  have hn := steady_newlines h
  have hc := (shows_iff hw).1 hs
  subst hc
  obtain ⟨n, c, hat⟩ := at_exists (s := t.content) (o := sel.cursor) (by omega)
  obtain ⟨n', c', hat', e⟩ := Navigator.next_ascii hw hn hseg ha hat ho sel.targetCol
  exact ⟨n', c', hat', move_lands hw hn ha he hseg (by omega) (by omega) hat .right ext e
    (Navigator.lands_of_at hat')⟩

/-- C17: moving right from the last offset stays there, if the remembered column is the one of the cursor. -/
theorem C17_right_end {t : PieceTable} (h : SteadyHistory t) {s : Bytes} (hs : Shows t s) (ha : Ascii s)
    (he : EndsWithNewline s) {seg : Segmentation} (hseg : IsSegmentation seg) (sel : Selection) (ext : Bool)
    (ho : sel.cursor + 1 = s.length) (h1 : s.length ≠ 1) (hr : Remembered s sel.cursor sel.targetCol) :
    Selection.move seg t .right ext sel = .ok (moved sel ext sel.cursor sel.targetCol) := by
  have hw := (reachable_ready (steady_any h)).wf
  have hn := steady_newlines h
  have hc := (shows_iff hw).1 hs
  subst hc
  obtain ⟨n, hl⟩ := hr
  obtain ⟨c, hat⟩ := Navigator.at_of_lands hl
  exact move_lands hw hn ha he hseg (by omega) h1 hat .right ext
    (Navigator.next_end hw hn hseg ha hat ho sel.targetCol) hl

/-- C17: moving left from any offset but 0 goes to the previous offset and remembers its column. -/
theorem C17_left {t : PieceTable} (h : SteadyHistory t) {s : Bytes} (hs : Shows t s) (ha : Ascii s)
    (he : EndsWithNewline s) {seg : Segmentation} (hseg : IsSegmentation seg) (sel : Selection) (ext : Bool)
    (ho : sel.cursor < s.length) (h0 : 0 < sel.cursor) :
    ∃ n c, At s (sel.cursor - 1) n c ∧ Selection.move seg t .left ext sel = .ok (moved sel ext (sel.cursor - 1) c) := by
  have hw := (reachable_ready (steady_any h)).wf
  have hn := steady_newlines h
  have hc := (shows_iff hw).1 hs
  subst hc
  obtain ⟨n, c, hat⟩ := at_exists (s := t.content) (o := sel.cursor) (by omega)
  obtain ⟨n', c', hat', e⟩ := Navigator.previous_ascii hw hn hat h0 sel.targetCol
  exact ⟨n', c', hat', move_lands hw hn ha he hseg (by omega) (by omega) hat .left ext e
    (Navigator.lands_of_at hat')⟩

/-- C17: moving left from offset 0 stays there, if the remembered column is the one of the cursor. -/
theorem C17_left_begin {t : PieceTable} (h : SteadyHistory t) {s : Bytes} (hs : Shows t s) (ha : Ascii s)
    (he : EndsWithNewline s) {seg : Segmentation} (hseg : IsSegmentation seg) (sel : Selection) (ext : Bool)
    (h0 : sel.cursor = 0) (h1 : s.length ≠ 1) (hr : Remembered s sel.cursor sel.targetCol) :
    Selection.move seg t .left ext sel = .ok (moved sel ext 0 sel.targetCol) := by
  have hw := (reachable_ready (steady_any h)).wf
  have hn := steady_newlines h
  have hc := (shows_iff hw).1 hs
  subst hc
  obtain ⟨n, hl⟩ := hr
  obtain ⟨c, hat⟩ := Navigator.at_of_lands hl
  have hlt := at_lt he hat
  have hb : At t.content 0 1 1 := by
    obtain ⟨n0, pre, line, suf, hl0, g1, g2, _⟩ := exists_lineAt (s := t.content) (o := 0) (by omega)
    have hp : pre = [] := List.length_eq_zero_iff.1 (by omega)
    have hn0 := hl0.pre_eq_nil.1 hp
    subst hn0
    exact ⟨pre, line, suf, hl0, by omega, by omega, by omega⟩
  rw [h0] at hat hl
  obtain ⟨e1, e2⟩ := at_unique hat hb
  subst e1 e2
  rw [← h0] at hat
  exact move_lands (n' := 1) (c' := 1) hw hn ha he hseg hlt h1 hat .left ext (by simp [Navigator.move, Navigator.previous, Navigator.BEGIN]) hl

/-- C17 needs the agreement of the remembered column, and deleting a selection breaks it: in `"ab\ncd\n"`, extend the
selection down from the start (cursor at offset 3, column 1) and delete it: the text is `"d\n"` and the cursor is
clamped to offset 1, the last one, with remembered column 1.  Moving right then goes back to offset 0. -/
theorem C17_right_end_refuted :
    Selection.move bytewise (PieceTable.withText [97, 98, 10, 99, 100, 10]) .down true Selection.new = .ok ⟨0, 3, 1⟩ ∧
    selectionRange bytewise (PieceTable.withText [97, 98, 10, 99, 100, 10]) ⟨0, 3, 1⟩ = .ok (0, 4) ∧
    (∃ t, (PieceTable.withText [97, 98, 10, 99, 100, 10]).delete H 0 4 = .ok t ∧
      t.range 0 9 = .ok (some [100, 10]) ∧ t.maxOffset = .ok 1 ∧ Selection.clampTo ⟨0, 3, 1⟩ 1 = ⟨0, 1, 1⟩ ∧
      Selection.move bytewise t .right false ⟨0, 1, 1⟩ = .ok ⟨0, 0, 1⟩) := by
  refine ⟨by decide, by decide, _, rfl, by decide, by decide, by decide, by decide⟩

example : ∃ n c, At textA 3 n c ∧ Selection.move bytewise TA .right true ⟨1, 2, 7⟩ = .ok ⟨1, 3, c⟩ :=
  C17_right (forward_steady TA_forward) TA_shows textA_ascii textA_ends bytewise_ok ⟨1, 2, 7⟩ true (by decide)
example : ∃ n c, At textA 2 n c ∧ Selection.move bytewise TA .left false ⟨1, 3, 7⟩ = .ok ⟨2, 2, c⟩ :=
  C17_left (forward_steady TA_forward) TA_shows textA_ascii textA_ends bytewise_ok ⟨1, 3, 7⟩ false (by decide) (by decide)
example : Remembered textA 5 9 :=
  ⟨3, [97, 98, 10, 10], [99], [10], ⟨rfl, rfl, by decide, by decide, by decide, by decide⟩, by omega, by decide⟩

/-! ## C18 -/

/-- C18: moving down goes to the next line (staying on the last one), to the remembered column or to the end of a
shorter line, and keeps remembering that column. -/
theorem C18_down {t : PieceTable} (h : SteadyHistory t) {s : Bytes} (hs : Shows t s) (ha : Ascii s)
    (he : EndsWithNewline s) {seg : Segmentation} (hseg : IsSegmentation seg) (sel : Selection) (ext : Bool)
    {n c : Nat} (hat : At s sel.cursor n c) (htc : 1 ≤ sel.targetCol) (h1 : s.length ≠ 1) :
    ∃ o, Lands s (if n < Spec.lineCount s then n + 1 else n) sel.targetCol o ∧
      Selection.move seg t .down ext sel = .ok (moved sel ext o sel.targetCol) := by
  have hw := (reachable_ready (steady_any h)).wf
  have hn := steady_newlines h
  have hc := (shows_iff hw).1 hs
  subst hc
  have hlt := at_lt he hat
  have hne : t.content ≠ [] := by intro e; rw [e] at hlt; simp at hlt
  have hnn : 1 ≤ n ∧ n ≤ Spec.lineCount t.content := by
    obtain ⟨pre, line, suf, hl, _⟩ := hat; exact ⟨hl.pos, lineAt_le hl⟩
  obtain ⟨o, hl⟩ := lands_exists (s := t.content) (n := if n < Spec.lineCount t.content then n + 1 else n)
    (tc := sel.targetCol) (by split <;> omega) (by split <;> omega) htc
  refine ⟨o, hl, move_lands (c' := c) hw hn ha he hseg hlt h1 hat .down ext ?_ hl⟩
  simp only [Navigator.move, Navigator.nextLine, lineCount_eq hw hn hne, except_bind_ok, except_pure]
  unfold Spec.lineCount
  split <;> rfl

/-- C18: moving up. -/
theorem C18_up {t : PieceTable} (h : SteadyHistory t) {s : Bytes} (hs : Shows t s) (ha : Ascii s)
    (he : EndsWithNewline s) {seg : Segmentation} (hseg : IsSegmentation seg) (sel : Selection) (ext : Bool)
    {n c : Nat} (hat : At s sel.cursor n c) (htc : 1 ≤ sel.targetCol) (h1 : s.length ≠ 1) :
    ∃ o, Lands s (if 1 < n then n - 1 else n) sel.targetCol o ∧
      Selection.move seg t .up ext sel = .ok (moved sel ext o sel.targetCol) := by
  have hw := (reachable_ready (steady_any h)).wf
  have hn := steady_newlines h
  have hc := (shows_iff hw).1 hs
  subst hc
  have hlt := at_lt he hat
  have hnn : 1 ≤ n ∧ n ≤ Spec.lineCount t.content := by
    obtain ⟨pre, line, suf, hl, _⟩ := hat; exact ⟨hl.pos, lineAt_le hl⟩
  obtain ⟨o, hl⟩ := lands_exists (s := t.content) (n := if 1 < n then n - 1 else n)
    (tc := sel.targetCol) (by split <;> omega) (by split <;> omega) htc
  refine ⟨o, hl, move_lands (c' := c) hw hn ha he hseg hlt h1 hat .up ext ?_ hl⟩
  simp only [Navigator.move, Navigator.previousLine]
  split <;> rfl

/-- C18: going down and then up gives the cursor back, when there is a line below. -/
theorem C18_down_up {t : PieceTable} (h : SteadyHistory t) {s : Bytes} (hs : Shows t s) (ha : Ascii s)
    (he : EndsWithNewline s) {seg : Segmentation} (hseg : IsSegmentation seg) (sel : Selection) (ext : Bool)
    {n : Nat} (hr : Lands s n sel.targetCol sel.cursor) (hlast : n < Spec.lineCount s) (h1 : s.length ≠ 1) :
    ∃ sel', Selection.move seg t .down ext sel = .ok sel' ∧
      Selection.move seg t .up ext sel' = .ok (moved sel ext sel.cursor sel.targetCol) := by
  obtain ⟨c, hat⟩ := Navigator.at_of_lands hr
  have htc : 1 ≤ sel.targetCol := by obtain ⟨_, _, _, _, h, _⟩ := hr; exact h
  obtain ⟨o, hl, e⟩ := C18_down h hs ha he hseg sel ext hat htc h1
  rw [if_pos hlast] at hl
  refine ⟨_, e, ?_⟩
  obtain ⟨c', hat'⟩ := Navigator.at_of_lands hl
  obtain ⟨o2, hl2, e2⟩ := C18_up h hs ha he hseg (moved sel ext o sel.targetCol) ext hat' htc h1
  have hpos : 1 ≤ n := by obtain ⟨_, _, _, h, _⟩ := hr; exact h.pos
  rw [if_pos (by omega)] at hl2
  simp only [Nat.add_sub_cancel] at hl2
  have ho2 : o2 = sel.cursor := by
    obtain ⟨p1, l1, s1, g1, _, g2⟩ := hl2
    obtain ⟨p2, l2, s2, k1, _, k2⟩ := hr
    obtain ⟨e1, e2, _⟩ := g1.unique k1
    subst e1 e2
    rw [g2, k2]; rfl
  rw [e2, ho2]
  cases ext <;> rfl

example : ∃ o, Lands textA 2 3 o ∧ Selection.move bytewise TA .down false ⟨0, 2, 3⟩ = .ok ⟨o, o, 3⟩ :=
  C18_down (forward_steady TA_forward) TA_shows textA_ascii textA_ends bytewise_ok ⟨0, 2, 3⟩ false (n := 1) (c := 3)
    ⟨[], [97, 98], [10, 10, 99, 10], ⟨rfl, rfl, by decide, by decide, by decide, by decide⟩, by omega, by decide, by decide⟩
    (by decide) (by decide)
example : Selection.move bytewise TA .down false ⟨0, 2, 3⟩ = .ok ⟨3, 3, 3⟩ ∧
    Selection.move bytewise TA .up false ⟨3, 3, 3⟩ = .ok ⟨2, 2, 3⟩ := by decide

/-! ## C19 -/

/-- C19: jump to the begin of the line. -/
theorem C19_line_begin {t : PieceTable} (h : SteadyHistory t) {s : Bytes} (hs : Shows t s) (ha : Ascii s)
    (he : EndsWithNewline s) {seg : Segmentation} (hseg : IsSegmentation seg) (sel : Selection) (ext : Bool)
    {n : Nat} {pre line suf : Bytes} (hl : LineAt s n pre line suf) (hp1 : pre.length ≤ sel.cursor)
    (hp2 : sel.cursor ≤ pre.length + line.length) (h1 : s.length ≠ 1) :
    Selection.move seg t .lineBegin ext sel = .ok (moved sel ext pre.length 1) := by
  have hw := (reachable_ready (steady_any h)).wf
  have hn := steady_newlines h
  have hc := (shows_iff hw).1 hs
  subst hc
  have hat : At t.content sel.cursor n (sel.cursor - pre.length + 1) :=
    ⟨pre, line, suf, hl, by omega, by omega, by omega⟩
  exact move_lands (c' := 1) hw hn ha he hseg (at_lt he hat) h1 hat .lineBegin ext rfl
    ⟨pre, line, suf, hl, by omega, by omega⟩

/-- C19: jump to the end of a non-empty line: its last character. -/
theorem C19_line_end {t : PieceTable} (h : SteadyHistory t) {s : Bytes} (hs : Shows t s) (ha : Ascii s)
    (he : EndsWithNewline s) {seg : Segmentation} (hseg : IsSegmentation seg) (sel : Selection) (ext : Bool)
    {n : Nat} {pre line suf : Bytes} (hl : LineAt s n pre line suf) (hp1 : pre.length ≤ sel.cursor)
    (hp2 : sel.cursor ≤ pre.length + line.length) (hne : line ≠ []) :
    Selection.move seg t .lineEnd ext sel = .ok (moved sel ext (pre.length + (line.length - 1)) line.length) := by
  have hw := (reachable_ready (steady_any h)).wf
  have hn := steady_newlines h
  have hc := (shows_iff hw).1 hs
  subst hc
  have hat : At t.content sel.cursor n (sel.cursor - pre.length + 1) :=
    ⟨pre, line, suf, hl, by omega, by omega, by omega⟩
  have hpos := List.length_pos_iff.2 hne
  have hlen := hl.length
  have := List.length_pos_iff.2 (suf_ne_nil he hl)
  refine move_lands (n' := n) (c' := line.length) (tc := line.length) hw hn ha he hseg (at_lt he hat) (by omega) hat
    .lineEnd ext ?_ ⟨pre, line, suf, hl, by omega, by omega⟩
  simp only [Navigator.move, Navigator.lineEnd, lineLength_at hw hn hl, except_bind_ok, except_pure]

/-- C19 (and C20, violated): the jump to the end of an empty line crashes. -/
theorem C19_line_end_empty_refuted {t : PieceTable} (h : SteadyHistory t) {s : Bytes} (hs : Shows t s) (ha : Ascii s)
    (he : EndsWithNewline s) {seg : Segmentation} (hseg : IsSegmentation seg) (sel : Selection) (ext : Bool)
    {n : Nat} {pre suf : Bytes} (hl : LineAt s n pre [] suf) (hp1 : sel.cursor = pre.length) (h1 : s.length ≠ 1) :
    Selection.move seg t .lineEnd ext sel = .error .overflow := by
  have hw := (reachable_ready (steady_any h)).wf
  have hn := steady_newlines h
  have hsh := hs
  have hc := (shows_iff hw).1 hs
  subst hc
  have hat : At t.content sel.cursor n 1 := ⟨pre, [], suf, hl, by omega, by simp, by omega⟩
  have hm : Navigator.move seg t ⟨⟨n, 1⟩, sel.targetCol⟩ .lineEnd = .ok ⟨⟨n, 0⟩, 0⟩ := by
    simp only [Navigator.move, Navigator.lineEnd, lineLength_at hw hn hl, except_bind_ok, except_pure]
    rfl
  rw [move_eq hw hn ha hseg (at_lt he hat) h1 hat .lineEnd ext hm]
  unfold Navigator.pos
  simp only [lineBytes_at hw hn hl, except_bind_ok, Nat.min_zero]
  rw [(C15_zero h hsh hl.ne_nil hl.pos (lineAt_le hl) 0).2]
  rfl

/-- C19: jump to the begin of the document. -/
theorem C19_begin {t : PieceTable} (h : SteadyHistory t) {s : Bytes} (hs : Shows t s) (ha : Ascii s)
    (he : EndsWithNewline s) {seg : Segmentation} (hseg : IsSegmentation seg) (sel : Selection) (ext : Bool)
    (ho : sel.cursor < s.length) (h1 : s.length ≠ 1) :
    Selection.move seg t .begin ext sel = .ok (moved sel ext 0 1) := by
  have hw := (reachable_ready (steady_any h)).wf
  have hn := steady_newlines h
  have hc := (shows_iff hw).1 hs
  subst hc
  obtain ⟨n, c, hat⟩ := at_exists ho
  obtain ⟨n0, pre, line, suf, hl0, g1, g2, _⟩ := exists_lineAt (s := t.content) (o := 0) (by omega)
  have hp : pre = [] := List.length_eq_zero_iff.1 (by omega)
  have hn0 := hl0.pre_eq_nil.1 hp
  subst hn0
  exact move_lands (n' := 1) (c' := 1) hw hn ha he hseg ho h1 hat .begin ext rfl
    ⟨pre, line, suf, hl0, by omega, by omega⟩

/-- C19: jump to the end of the document: the last offset. -/
theorem C19_end {t : PieceTable} (h : SteadyHistory t) {s : Bytes} (hs : Shows t s) (ha : Ascii s)
    (he : EndsWithNewline s) {seg : Segmentation} (hseg : IsSegmentation seg) (sel : Selection) (ext : Bool)
    (ho : sel.cursor < s.length) (h1 : s.length ≠ 1) :
    ∃ n c, At s (s.length - 1) n c ∧ Selection.move seg t .end ext sel = .ok (moved sel ext (s.length - 1) c) := by
  have hw := (reachable_ready (steady_any h)).wf
  have hn := steady_newlines h
  have hc := (shows_iff hw).1 hs
  subst hc
  have hne : t.content ≠ [] := by intro e; rw [e] at ho; simp at ho
  obtain ⟨n, c, hat⟩ := at_exists ho
  obtain ⟨n', c', hat'⟩ := at_exists (s := t.content) (o := t.content.length - 1) (by omega)
  refine ⟨n', c', hat', move_lands (n' := n') (c' := c') (tc := c') hw hn ha he hseg ho h1 hat .end ext ?_
    (Navigator.lands_of_at hat')⟩
  simp only [Navigator.move, Navigator.end, maxCoord_ascii hw hn hseg ha hne hat', except_bind_ok, except_pure]

/-- C19: the four jumps are idempotent: repeating one changes nothing. -/
theorem C19_idempotent {t : PieceTable} (h : SteadyHistory t) {s : Bytes} (hs : Shows t s) (ha : Ascii s)
    (he : EndsWithNewline s) {seg : Segmentation} (hseg : IsSegmentation seg) (sel sel' : Selection) (ext : Bool)
    (ho : sel.cursor < s.length) {d : CursorTarget} (hd : d = .lineBegin ∨ d = .lineEnd ∨ d = .begin ∨ d = .end)
    (hm : Selection.move seg t d ext sel = .ok sel') : Selection.move seg t d ext sel' = .ok sel' := by
  have hlen := (shows_iff (reachable_ready (steady_any h)).wf).1 hs
  by_cases h1 : s.length = 1
  · have ht : t.len = 1 := by rw [(reachable_ready (steady_any h)).wf.len_eq, hlen, h1]
    unfold Selection.move at hm ⊢
    rw [if_pos ht] at hm
    rw [if_pos ht]
  · obtain ⟨n, pre, line, suf, hl, g1, g2, _⟩ := exists_lineAt ho
    have hsuf := List.length_pos_iff.2 (suf_ne_nil he hl)
    have hll := hl.length
    rcases hd with rfl | rfl | rfl | rfl
    · rw [C19_line_begin h hs ha he hseg sel ext hl g1 g2 h1] at hm
      cases hm
      rw [C19_line_begin h hs ha he hseg _ ext hl (by simp [moved]) (by simp [moved]) h1]
      cases ext <;> rfl
    · by_cases hne : line = []
      · subst hne
        rw [C19_line_end_empty_refuted h hs ha he hseg sel ext hl (by simp at g2; omega) h1] at hm
        cases hm
      · have := List.length_pos_iff.2 hne
        rw [C19_line_end h hs ha he hseg sel ext hl g1 g2 hne] at hm
        cases hm
        rw [C19_line_end h hs ha he hseg _ ext hl (by simp [moved]) (by simp only [moved]; omega) hne]
        cases ext <;> rfl
    · rw [C19_begin h hs ha he hseg sel ext ho h1] at hm
      cases hm
      rw [C19_begin h hs ha he hseg _ ext (by simp only [moved]; omega) h1]
      cases ext <;> rfl
    · obtain ⟨n1, c1, k1, e1⟩ := C19_end h hs ha he hseg sel ext ho h1
      rw [e1] at hm
      cases hm
      obtain ⟨n2, c2, k2, e2⟩ := C19_end h hs ha he hseg (moved sel ext (s.length - 1) c1) ext
        (by simp only [moved]; omega) h1
      rw [e2]
      obtain ⟨_, rfl⟩ := at_unique k1 k2
      cases ext <;> rfl

example : LineAt textA 1 [] [97, 98] [10, 10, 99, 10] := ⟨rfl, rfl, by decide, by decide, by decide, by decide⟩
example : Selection.move bytewise TA .lineEnd false ⟨0, 0, 1⟩ = .ok ⟨1, 1, 2⟩ ∧
    Selection.move bytewise TA .lineEnd false ⟨3, 3, 1⟩ = .error .overflow ∧
    Selection.move bytewise TA .end true ⟨3, 3, 1⟩ = .ok ⟨3, 5, 2⟩ := by decide

/-! ## C20, C23 -/

/-- A sequence of motions, each extending the selection or not. -/
def runMotions (seg : Segmentation) (t : PieceTable) : List (CursorTarget × Bool) → Selection → R Selection
  | [], sel => .ok sel
  | (d, ext) :: ms, sel => do
    let sel ← Selection.move seg t d ext sel
    runMotions seg t ms sel

/-- Both ends are offsets of the text, and the remembered column is one. -/
def Inside (s : Bytes) (sel : Selection) : Prop :=
  sel.anchor < s.length ∧ sel.cursor < s.length ∧ 1 ≤ sel.targetCol

/-- C20/C23, one motion. -/
theorem motion_inside {t : PieceTable} (h : SteadyHistory t) {s : Bytes} (hs : Shows t s) (ha : Ascii s)
    (he : EndsWithNewline s) {seg : Segmentation} (hseg : IsSegmentation seg) {sel : Selection} (hin : Inside s sel)
    (d : CursorTarget) (ext : Bool) (hd : d ≠ .lineEnd ∨ [] ∉ Spec.lines s) :
    ∃ sel', Selection.move seg t d ext sel = .ok sel' ∧ Inside s sel' := by
  obtain ⟨hi1, hi2, hi3⟩ := hin
  have fin : ∀ {o tc}, o < s.length → 1 ≤ tc → Inside s (moved sel ext o tc) := by
    intro o tc ho htc
    refine ⟨?_, ho, htc⟩
    unfold moved; cases ext
    · exact ho
    · exact hi1
  have lt_of_lands : ∀ {n tc o}, Lands s n tc o → o < s.length := by
    intro n tc o hl
    obtain ⟨c, hat⟩ := Navigator.at_of_lands hl
    exact at_lt he hat
  have atc : ∀ {o n c}, At s o n c → 1 ≤ c := by rintro o n c ⟨_, _, _, _, h, _⟩; exact h
  by_cases h1 : s.length = 1
  · refine ⟨sel, ?_, hi1, hi2, hi3⟩
    have ht : t.len = 1 := by
      rw [(reachable_ready (steady_any h)).wf.len_eq, (shows_iff (reachable_ready (steady_any h)).wf).1 hs, h1]
    unfold Selection.move
    rw [if_pos ht]
  · obtain ⟨n, c, hat⟩ := at_exists hi2
    obtain ⟨n0, pre, line, suf, hl, g1, g2, _⟩ := exists_lineAt hi2
    have hsuf := List.length_pos_iff.2 (suf_ne_nil he hl)
    have hll := hl.length
    have hw := (reachable_ready (steady_any h)).wf
    have hn := steady_newlines h
    have hcont := (shows_iff hw).1 hs
    cases d with
    | left =>
      by_cases h0 : 0 < sel.cursor
      · obtain ⟨_, c', k, e⟩ := C17_left h hs ha he hseg sel ext hi2 h0
        exact ⟨_, e, fin (by omega) (atc k)⟩
      · -- at the start the cursor goes to the remembered column of the first line
        subst hcont
        obtain ⟨o, hlo⟩ := lands_exists (s := t.content) (n := n) (tc := sel.targetCol)
          (by obtain ⟨_, _, _, hl, _⟩ := hat; exact hl.pos) (by obtain ⟨_, _, _, hl, _⟩ := hat; exact lineAt_le hl) hi3
        have hb : (⟨n, c⟩ : Coords) = Navigator.BEGIN := by
          obtain ⟨p, l, sf, k1, k2, k3, k4⟩ := hat
          have hp : p = [] := List.length_eq_zero_iff.1 (by omega)
          rw [k1.pre_eq_nil.1 hp]
          have : c = 1 := by omega
          rw [this]; rfl
        refine ⟨_, move_lands (n' := n) (c' := c) hw hn ha he hseg hi2 h1 hat .left ext ?_ hlo, fin (lt_of_lands hlo) hi3⟩
        simp only [Navigator.move, Navigator.previous, hb]
        rw [if_neg (by simp)]
    | right =>
      by_cases h0 : sel.cursor + 1 < s.length
      · obtain ⟨_, c', k, e⟩ := C17_right h hs ha he hseg sel ext h0
        exact ⟨_, e, fin h0 (atc k)⟩
      · subst hcont
        obtain ⟨o, hlo⟩ := lands_exists (s := t.content) (n := n) (tc := sel.targetCol)
          (by obtain ⟨_, _, _, hl, _⟩ := hat; exact hl.pos) (by obtain ⟨_, _, _, hl, _⟩ := hat; exact lineAt_le hl) hi3
        exact ⟨_, move_lands (n' := n) (c' := c) hw hn ha he hseg hi2 h1 hat .right ext
          (Navigator.next_end hw hn hseg ha hat (by omega) _) hlo, fin (lt_of_lands hlo) hi3⟩
    | up =>
      obtain ⟨o, hlo, e⟩ := C18_up h hs ha he hseg sel ext hat hi3 h1
      exact ⟨_, e, fin (lt_of_lands hlo) hi3⟩
    | down =>
      obtain ⟨o, hlo, e⟩ := C18_down h hs ha he hseg sel ext hat hi3 h1
      exact ⟨_, e, fin (lt_of_lands hlo) hi3⟩
    | begin => exact ⟨_, C19_begin h hs ha he hseg sel ext hi2 h1, fin (by omega) (by omega)⟩
    | «end» =>
      obtain ⟨_, c', k, e⟩ := C19_end h hs ha he hseg sel ext hi2 h1
      exact ⟨_, e, fin (by omega) (atc k)⟩
    | lineBegin => exact ⟨_, C19_line_begin h hs ha he hseg sel ext hl g1 g2 h1, fin (by omega) (by omega)⟩
    | lineEnd =>
      have hne : line ≠ [] := by
        intro e
        rcases hd with hd | hd
        · exact hd rfl
        · have := hl.get; rw [e] at this; exact hd (List.mem_of_getElem? this)
      have := List.length_pos_iff.2 hne
      exact ⟨_, C19_line_end h hs ha he hseg sel ext hl g1 g2 hne, fin (by omega) (by omega)⟩

/-- C20 (and C23 for motions): on an ASCII text ending with a newline, no sequence of motions crashes, and the
selection stays inside the text, if none of the motions is a jump to the end of a line or the text has no empty line.
(Single motions, and texts without a final newline: `C20_motion`.) -/
theorem C20_motions {t : PieceTable} (h : SteadyHistory t) {s : Bytes} (hs : Shows t s) (ha : Ascii s)
    (he : EndsWithNewline s) {seg : Segmentation} (hseg : IsSegmentation seg) (ms : List (CursorTarget × Bool))
    {sel : Selection} (hin : Inside s sel) (hms : (∀ m ∈ ms, m.1 ≠ .lineEnd) ∨ [] ∉ Spec.lines s) :
    ∃ sel', runMotions seg t ms sel = .ok sel' ∧ Inside s sel' := by
  induction ms generalizing sel with
  | nil => exact ⟨sel, rfl, hin⟩
  | cons m ms ih =>
    obtain ⟨sel1, e1, hin1⟩ := motion_inside h hs ha he hseg hin m.1 m.2
      (hms.imp_left fun hm => hm m (by simp))
    obtain ⟨sel2, e2, hin2⟩ := ih hin1 (hms.imp_left fun hm m' h' => hm m' (by simp [h']))
    refine ⟨sel2, ?_, hin2⟩
    show (Selection.move seg t m.1 m.2 sel >>= fun s' => runMotions seg t ms s') = _
    rw [e1]; exact e2

example : Inside textA Selection.new ∧
    runMotions bytewise TA [(.down, false), (.down, true), (.right, true), (.end, false), (.up, false), (.left, true)]
      Selection.new = .ok ⟨3, 2, 3⟩ := by
  refine ⟨by unfold Inside; decide, by decide⟩

/-- C20, violated without a final newline: in `"abc\nd"`, moving down from column 3 crashes. -/
theorem C20_down_refuted :
    Selection.move bytewise (PieceTable.withText [97, 98, 99, 10, 100]) .down false ⟨2, 2, 3⟩ = .error .unwrap := by
  decide

/-- `"é\n"` -/
def TE : PieceTable := PieceTable.withText [195, 169, 10]

/-- C20, violated for characters of more than one byte: in `"é\n"`, moving right twice crashes. -/
theorem C20_multibyte_refuted {seg : Segmentation} (hseg : IsSegmentation seg) (h1 : seg [195, 169] = [[195, 169]]) :
    Selection.move seg TE .right false Selection.new = .ok ⟨2, 2, 2⟩ ∧
      Selection.move seg TE .right false ⟨2, 2, 2⟩ = .error .unwrap := by
  have h2 : seg [10] = [[10]] := hseg.ascii [10] (by unfold Ascii; decide) (Or.inr rfl)
  have f1 : TE.lineBytes 1 = .ok (some [195, 169]) := by decide
  have f2 : TE.lineCount = .ok 1 := by decide
  have f3 : TE.maxOffset = .ok 2 := by decide
  have f4 : TE.newlines = [2] := by decide
  have f5 : TE.len = 3 := by decide
  have f6 : TE.lineLength 1 = .ok 2 := by decide
  have f7 : TE.range 0 2 = .ok (some [195, 169]) := by decide
  have f8 : TE.range 2 3 = .ok (some [10]) := by decide
  have o0 : TE.offsetToCoord seg 0 = .ok (some ⟨1, 1⟩) := rfl
  have o1 : TE.offsetToCoord seg 1 = .ok (some ⟨1, 2⟩) := by
    simp [offsetToCoord, f3, f4]
  have o2 : TE.offsetToCoord seg 2 = .ok (some ⟨1, 3⟩) := by
    simp [offsetToCoord, f3, f4, f6, List.findIdx?_cons]
  have c1 : TE.coordToOffset seg ⟨1, 1⟩ = .ok (some 0) := by
    simp [coordToOffset, f2, f1, h1, subChecked, clusterStarts]
  have c2 : TE.coordToOffset seg ⟨1, 2⟩ = .ok (some 2) := by
    simp [coordToOffset, f2, f1, h1]
  have c3 : TE.coordToOffset seg ⟨1, 3⟩ = .ok none := by
    simp [coordToOffset, f2, f1, h1, subChecked, clusterStarts]
  have a1 : TE.charAt seg ⟨1, 1⟩ = .ok (some [195, 169]) := by
    simp [charAt, c1, charAtOffset, f4, f7, h1, subChecked, unwrapR]
  have a2 : TE.charAt seg ⟨1, 2⟩ = .ok (some [10]) := by
    simp [charAt, c2, charAtOffset, f4, f8, h2, subChecked, unwrapR]
  have m : TE.maxCoord seg = .ok ⟨1, 3⟩ := by
    simp [maxCoord, f3, o2, unwrapR]
  constructor
  · simp [Selection.move, f5, Selection.new, o0, Navigator.navigate, Navigator.fromPosition, c1, unwrapR,
      Navigator.move, Navigator.next, m, a1, o1, Navigator.pos, f1, h1, c2, a2, NL]
  · simp [Selection.move, f5, o2, Navigator.navigate, Navigator.fromPosition, c3, unwrapR]

/-! ## C21 -/

/-- C21: a selection inside an ASCII text is the range from its smaller to its larger end, inclusive, whichever end
is the cursor, and the selected text is the bytes of that range. -/
theorem C21_selection {t : PieceTable} (h : SteadyHistory t) {s : Bytes} (hs : Shows t s) (ha : Ascii s)
    (he : EndsWithNewline s) {seg : Segmentation} (hseg : IsSegmentation seg) {sel : Selection}
    (h1 : sel.anchor < s.length) (h2 : sel.cursor < s.length) :
    let a := min sel.anchor sel.cursor
    let b := max sel.anchor sel.cursor + 1
    selectionRange seg t sel = .ok (a, b) ∧ t.textRange a b = .ok (some (slice s a b)) := by
  intro a b
  have hw := (reachable_ready (steady_any h)).wf
  have hn := steady_newlines h
  have hc := (shows_iff hw).1 hs
  subst hc
  have hf : sel.first = a := by unfold Selection.first; split <;> omega
  have hla : sel.last + 1 = b := by unfold Selection.last; split <;> omega
  constructor
  · unfold selectionRange
    rw [maxOffset_eq hw]
    simp only [except_bind_ok]
    split
    · rw [hf, hla]; rfl
    · rename_i hne
      have hlt : sel.last + 1 < t.content.length := by
        have : sel.last < t.content.length := by omega
        omega
      obtain ⟨n, c, hat⟩ := at_exists (s := t.content) (o := sel.last) (by omega)
      rw [offsetToCoord_ascii hw hn hseg ha (by omega) hat]
      simp only [except_bind_ok]
      rw [Navigator.navigate_ascii hw hn hseg ha hat]
      simp only [except_bind_ok, unwrapR]
      obtain ⟨n', c', hat', e⟩ := Navigator.next_ascii hw hn hseg ha hat hlt c
      rw [e]
      simp only [except_bind_ok]
      obtain ⟨p, e2, hp⟩ := Navigator.pos_ascii (c := c') hw hn hseg ha he (Navigator.lands_of_at hat')
      rw [e2]
      simp only [except_bind_ok, except_pure, hp, hf, hla]
  · unfold textRange
    rw [range_eq hw (by omega), if_pos (by omega)]
    simp only [except_bind_ok, except_pure, Option.map_some]
    rw [lossy_of_isText (isText_ascii ?_)]
    intro x hx
    exact ha x (List.mem_of_mem_take (List.mem_of_mem_drop hx))

example : selectionRange bytewise TA ⟨4, 1, 1⟩ = .ok (1, 5) ∧ TA.textRange 1 5 = .ok (some [98, 10, 10, 99]) :=
  C21_selection (forward_steady TA_forward) TA_shows textA_ascii textA_ends bytewise_ok (sel := ⟨4, 1, 1⟩) (by decide) (by decide)

end Ced.Props

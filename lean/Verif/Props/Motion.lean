import Verif.Spec.Motion
import Verif.Props.Coords

/-!
# What every motion does, and when it crashes (C20)

For all texts of single-byte characters, whether they end with a newline or not.
-/

namespace Ced.Props
open Spec PieceTable

theorem pos_outcome {t : PieceTable} (hw : t.WF) (hn : t.NewlinesOk) (ha : Ascii t.content) {seg : Segmentation}
    (hseg : IsSegmentation seg) {n c w : Nat} {pre line suf : Bytes} (hl : LineAt t.content n pre line suf) :
    (1 ≤ w ∧ (suf ≠ [] ∨ w ≤ line.length) →
      ∃ p : Position, Navigator.pos seg t ⟨⟨n, c⟩, w⟩ = .ok p ∧ p.offset = pre.length + (min w (line.length + 1) - 1)) ∧
    (¬ (1 ≤ w ∧ (suf ≠ [] ∨ w ≤ line.length)) → ∃ e, Navigator.pos seg t ⟨⟨n, c⟩, w⟩ = .error e) := by
  have hlen := hl.length
  unfold Navigator.pos
  simp only [lineBytes_at hw hn hl, except_bind_ok]
  rw [seg_line hseg hl ha]
  simp only [List.length_map]
  by_cases h1 : 1 ≤ w
  · have hat : At t.content (pre.length + (min w (line.length + 1) - 1)) n (min (line.length + 1) w) :=
      ⟨pre, line, suf, hl, by omega, by omega, by omega⟩
    rw [coordToOffset_ascii hw hn hseg ha hat]
    simp only [except_bind_ok]
    constructor
    · rintro ⟨_, h2⟩
      have ho : pre.length + (min w (line.length + 1) - 1) < t.content.length := by
        rcases h2 with h2 | h2
        · have := List.length_pos_iff.2 h2; omega
        · omega
      rw [charAt_ascii hw hn hseg ha ho hat]
      exact ⟨_, rfl, rfl⟩
    · intro hx
      have hx' : suf = [] ∧ line.length < w := by
        constructor
        · exact Classical.byContradiction fun h => hx ⟨h1, .inl h⟩
        · exact Nat.lt_of_not_le fun h => hx ⟨h1, .inr h⟩
      have ho : pre.length + (min w (line.length + 1) - 1) = t.content.length := by
        have := hx'.1; subst this; simp at hlen; omega
      unfold charAt
      rw [coordToOffset_ascii hw hn hseg ha hat]
      simp only [except_bind_ok]
      rw [charAtOffset_past hw hn ho]
      exact ⟨_, rfl⟩
  · refine ⟨fun h => absurd h.1 h1, fun _ => ?_⟩
    have hw0 : w = 0 := by omega
    subst hw0
    have hc : ∃ e, t.coordToOffset seg ⟨n, 0⟩ = .error e := by
      unfold coordToOffset
      rw [if_neg (by have := hl.pos; simp; omega), lineCount_eq hw hn hl.ne_nil]
      simp only [except_bind_ok]
      rw [if_neg (by have := lineAt_le hl; unfold Spec.lineCount at this; omega)]
      simp only [lineBytes_at hw hn hl, except_bind_ok]
      rw [if_neg (by omega)]
      exact ⟨_, rfl⟩
    obtain ⟨e, hc⟩ := hc
    rw [show min (line.length + 1) 0 = 0 by omega, hc]
    exact ⟨e, rfl⟩

theorem heads_move {t : PieceTable} (hw : t.WF) (hn : t.NewlinesOk) (ha : Ascii t.content) {seg : Segmentation}
    (hseg : IsSegmentation seg) {o tc m c : Nat} (ho : o < t.content.length) (hat : At t.content o m c)
    {d : CursorTarget} {n w : Nat} (hd : Heads t.content o tc d n w) :
    ∃ c', Navigator.move seg t ⟨⟨m, c⟩, tc⟩ d = .ok ⟨⟨n, c'⟩, w⟩ := by
  have hne : t.content ≠ [] := by intro e; rw [e] at ho; simp at ho
  cases d with
  | left =>
    simp only [Heads] at hd
    split at hd
    · rename_i h0
      obtain ⟨rfl, rfl⟩ := hd
      obtain ⟨p, l, sf, k1, k2, k3, k4⟩ := hat
      have hp : p = [] := List.length_eq_zero_iff.1 (by omega)
      have hm := k1.pre_eq_nil.1 hp
      have hc : c = 1 := by subst hp; simp at k4; omega
      subst hm hc
      exact ⟨1, rfl⟩
    · obtain ⟨n', c', k, e⟩ := Navigator.previous_ascii hw hn hat (by omega) tc
      obtain ⟨rfl, rfl⟩ := at_unique k hd
      exact ⟨c', e⟩
  | right =>
    simp only [Heads] at hd
    split at hd
    · rename_i h0
      obtain ⟨⟨c', k⟩, rfl⟩ := hd
      obtain ⟨rfl, rfl⟩ := at_unique k hat
      exact ⟨c', Navigator.next_end hw hn hseg ha hat h0 _⟩
    · obtain ⟨n', c', k, e⟩ := Navigator.next_ascii (seg := seg) hw hn hseg ha hat (by omega) tc
      obtain ⟨rfl, rfl⟩ := at_unique k hd
      exact ⟨c', e⟩
  | up =>
    obtain ⟨⟨m', c', k, hnn⟩, rfl⟩ := hd
    obtain ⟨rfl, rfl⟩ := at_unique k hat
    have hp : 1 ≤ m' := by obtain ⟨_, _, _, hl, _⟩ := hat; exact hl.pos
    refine ⟨c', ?_⟩
    simp only [Navigator.move, Navigator.previousLine]
    by_cases h1 : m' = 1
    · rw [if_pos h1] at hnn
      rw [if_neg (by omega), hnn, h1]
    · rw [if_neg h1] at hnn
      rw [if_pos (by omega), hnn]
  | down =>
    obtain ⟨⟨m', c', k, hnn⟩, rfl⟩ := hd
    obtain ⟨rfl, rfl⟩ := at_unique k hat
    have hp : m' ≤ Spec.lineCount t.content := by obtain ⟨_, _, _, hl, _⟩ := hat; exact lineAt_le hl
    refine ⟨c', ?_⟩
    simp only [Navigator.move, Navigator.nextLine, lineCount_eq hw hn hne, except_bind_ok, except_pure]
    unfold Spec.lineCount at hp hnn
    by_cases h1 : m' = (Spec.lines t.content).length
    · rw [if_pos h1] at hnn
      rw [if_neg (by omega), hnn]
    · rw [if_neg h1] at hnn
      rw [if_pos (by omega), hnn]
  | begin =>
    obtain ⟨rfl, rfl⟩ := hd
    exact ⟨1, rfl⟩
  | «end» =>
    refine ⟨w, ?_⟩
    simp only [Navigator.move, Navigator.end]
    rw [maxCoord_ascii hw hn hseg ha hne hd]
    rfl
  | lineBegin =>
    obtain ⟨⟨c', k⟩, rfl⟩ := hd
    obtain ⟨rfl, rfl⟩ := at_unique k hat
    exact ⟨1, rfl⟩
  | lineEnd =>
    obtain ⟨⟨c', k⟩, pre, line, suf, hl, rfl⟩ := hd
    obtain ⟨rfl, rfl⟩ := at_unique k hat
    refine ⟨line.length, ?_⟩
    simp only [Navigator.move, Navigator.lineEnd, lineLength_at hw hn hl, except_bind_ok, except_pure]

/-- C20 (and C17, C18, C19 for all single-byte texts): a motion goes to the wanted column of the line it is headed for,
or to the end of that line if it is shorter, and remembers the wanted column; and it crashes exactly when the wanted
column is 0 (the end of an empty line) or behind the end of a line that no newline ends. -/
theorem C20_motion {t : PieceTable} (h : SteadyHistory t) {s : Bytes} (hs : Shows t s) (ha : Ascii s)
    {seg : Segmentation} (hseg : IsSegmentation seg) {sel : Selection} (ho : sel.cursor < s.length) (h1 : s.length ≠ 1)
    {d : CursorTarget} (ext : Bool) {n w : Nat} (hd : Heads s sel.cursor sel.targetCol d n w)
    {pre line suf : Bytes} (hl : LineAt s n pre line suf) :
    (1 ≤ w ∧ (suf ≠ [] ∨ w ≤ line.length) →
      Selection.move seg t d ext sel = .ok (moved sel ext (pre.length + (min w (line.length + 1) - 1)) w)) ∧
    (¬ (1 ≤ w ∧ (suf ≠ [] ∨ w ≤ line.length)) → ∃ e, Selection.move seg t d ext sel = .error e) := by
  have hw := (reachable_ready (steady_any h)).wf
  have hn := steady_newlines h
  have hc := (shows_iff hw).1 hs
  subst hc
  obtain ⟨m, c, hat⟩ := at_exists ho
  obtain ⟨c', hm⟩ := heads_move hw hn ha hseg ho hat hd
  rw [move_eq hw hn ha hseg ho h1 hat d ext hm]
  obtain ⟨p1, p2⟩ := pos_outcome hw hn ha hseg (c := c') (w := w) hl
  constructor
  · intro hx
    obtain ⟨p, e, hp⟩ := p1 hx
    rw [e]
    simp only [except_bind_ok, except_pure, hp]
    rfl
  · intro hx
    obtain ⟨e, he⟩ := p2 hx
    rw [he]
    exact ⟨e, rfl⟩

/-- Every motion is headed somewhere: exactly one line and one column. -/
theorem C20_heads {s : Bytes} {o : Nat} (ho : o < s.length) (tc : Nat) (d : CursorTarget) :
    ∃ n w, Heads s o tc d n w ∧ (∃ pre line suf, LineAt s n pre line suf) ∧
      ∀ n' w', Heads s o tc d n' w' → n' = n ∧ w' = w := by
  obtain ⟨m, c, hat⟩ := at_exists ho
  have hl : ∀ {o n c}, At s o n c → ∃ pre line suf, LineAt s n pre line suf := by
    rintro o n c ⟨p, l, sf, h, _⟩; exact ⟨p, l, sf, h⟩
  have hcount : 1 ≤ m ∧ m ≤ Spec.lineCount s := by
    obtain ⟨pre, line, suf, h, _⟩ := hat; exact ⟨h.pos, lineAt_le h⟩
  have line : ∀ n, 1 ≤ n → n ≤ Spec.lineCount s → ∃ pre line suf, LineAt s n pre line suf := fun n a b => exists_line a b
  cases d with
  | left =>
    by_cases h0 : o = 0
    · refine ⟨1, tc, by simp [Heads, h0], line 1 (by omega) (by omega), ?_⟩
      intro n' w' h; simpa [Heads, h0] using h
    · obtain ⟨n, w, k⟩ := at_exists (s := s) (o := o - 1) (by omega)
      refine ⟨n, w, by simpa [Heads, h0] using k, hl k, ?_⟩
      intro n' w' h
      exact at_unique (by simpa [Heads, h0] using h) k
  | right =>
    by_cases h0 : o + 1 = s.length
    · refine ⟨m, tc, by rw [Heads, if_pos h0]; exact ⟨⟨c, hat⟩, rfl⟩, hl hat, ?_⟩
      intro n' w' h
      simp only [Heads, if_pos h0] at h
      obtain ⟨⟨c', k⟩, e⟩ := h
      exact ⟨(at_unique k hat).1, e⟩
    · obtain ⟨n, w, k⟩ := at_exists (s := s) (o := o + 1) (by omega)
      refine ⟨n, w, by simpa [Heads, h0] using k, hl k, ?_⟩
      intro n' w' h
      exact at_unique (by simpa [Heads, h0] using h) k
  | up =>
    refine ⟨if m = 1 then 1 else m - 1, tc, ⟨⟨m, c, hat, rfl⟩, rfl⟩, line _ (by split <;> omega) (by split <;> omega), ?_⟩
    rintro n' w' ⟨⟨m', c', k, e⟩, e'⟩
    obtain ⟨rfl, rfl⟩ := at_unique k hat
    exact ⟨e, e'⟩
  | down =>
    refine ⟨if m = Spec.lineCount s then m else m + 1, tc, ⟨⟨m, c, hat, rfl⟩, rfl⟩,
      line _ (by split <;> omega) (by split <;> omega), ?_⟩
    rintro n' w' ⟨⟨m', c', k, e⟩, e'⟩
    obtain ⟨rfl, rfl⟩ := at_unique k hat
    exact ⟨e, e'⟩
  | begin => exact ⟨1, 1, ⟨rfl, rfl⟩, line 1 (by omega) (by omega), fun _ _ h => h⟩
  | «end» =>
    obtain ⟨n, w, k⟩ := at_exists (s := s) (o := s.length - 1) (by omega)
    exact ⟨n, w, k, hl k, fun n' w' h => at_unique h k⟩
  | lineBegin =>
    refine ⟨m, 1, ⟨⟨c, hat⟩, rfl⟩, hl hat, ?_⟩
    rintro n' w' ⟨⟨c', k⟩, e⟩
    exact ⟨(at_unique k hat).1, e⟩
  | lineEnd =>
    obtain ⟨p, l, sf, h⟩ := hl hat
    refine ⟨m, l.length, ⟨⟨c, hat⟩, p, l, sf, h, rfl⟩, ⟨p, l, sf, h⟩, ?_⟩
    rintro n' w' ⟨⟨c', k⟩, p', l', sf', h', e⟩
    obtain ⟨rfl, rfl⟩ := at_unique k hat
    obtain ⟨_, e2, _⟩ := h.unique h'
    rw [e, ← e2]; exact ⟨rfl, rfl⟩

/-- C20: on a text of a single byte nothing moves and nothing crashes, wherever the cursor is said to be. -/
theorem C20_one_byte {t : PieceTable} (h : AnyHistory t) {s : Bytes} (hs : Shows t s) (h1 : s.length = 1)
    (seg : Segmentation) (d : CursorTarget) (ext : Bool) (sel : Selection) : Selection.move seg t d ext sel = .ok sel := by
  unfold Selection.move
  rw [if_pos (by rw [hs.1, h1])]

/-- C20: a motion from a cursor behind the end of the text (deletions and reloads leave such cursors, see C23) is the same
motion from the start of the text. -/
theorem C20_outside {t : PieceTable} (h : AnyHistory t) {s : Bytes} (hs : Shows t s) (hne : s ≠ []) (h1 : s.length ≠ 1)
    (seg : Segmentation) (d : CursorTarget) (ext : Bool) (sel : Selection) (ho : s.length ≤ sel.cursor) :
    Selection.move seg t d ext sel = Selection.move seg t d ext { sel with cursor := 0 } := by
  have hw := (reachable_ready h).wf
  have hc := (shows_iff hw).1 hs
  subst hc
  have h0 := List.length_pos_iff.2 hne
  unfold Selection.move
  rw [hw.len_eq, if_neg h1, if_neg h1, offsetToCoord_past hw ho (by omega)]
  have e : t.offsetToCoord seg 0 = .ok (some ⟨1, 1⟩) := rfl
  simp only [e, except_bind_ok]
  unfold Navigator.navigate Navigator.new
  simp only [Navigator.BEGIN]
  cases Navigator.fromPosition seg t ⟨1, 1⟩ with
  | error x => rfl
  | ok o => cases o <;> rfl

/-- C20: on a text that ends with a newline a motion from inside crashes exactly when it goes to the end of an empty
line, the text being longer than this newline. -/
theorem C20_crash_iff {t : PieceTable} (h : SteadyHistory t) {s : Bytes} (hs : Shows t s) (ha : Ascii s)
    (he : EndsWithNewline s) {seg : Segmentation} (hseg : IsSegmentation seg) {sel : Selection} (hin : Inside s sel)
    (d : CursorTarget) (ext : Bool) {n c : Nat} (hat : At s sel.cursor n c) :
    (∃ e, Selection.move seg t d ext sel = .error e) ↔
      d = .lineEnd ∧ s.length ≠ 1 ∧ ∃ pre suf, LineAt s n pre [] suf := by
  by_cases h1 : s.length = 1
  · rw [C20_one_byte (steady_any h) hs h1]
    constructor
    · rintro ⟨_, h⟩; cases h
    · rintro ⟨_, h, _⟩; exact absurd h1 h
  · obtain ⟨n', w, hd, ⟨pre, line, suf, hl⟩, hu⟩ := C20_heads hin.2.1 sel.targetCol d
    obtain ⟨o1, o2⟩ := C20_motion h hs ha hseg hin.2.1 h1 ext hd hl
    have hsuf := suf_ne_nil he hl
    have hatc : ∀ {o n c}, At s o n c → 1 ≤ c := by rintro o n c ⟨_, _, _, _, h, _⟩; exact h
    have hw : w = 0 → d = .lineEnd ∧ n' = n ∧ line = [] := by
      intro hw
      have htc := hin.2.2
      cases d with
      | lineEnd =>
        obtain ⟨⟨c', k⟩, p, l, sf, hl', e⟩ := hd
        obtain ⟨e1, _⟩ := at_unique k hat
        obtain ⟨_, e2, _⟩ := hl'.unique hl
        subst e2
        exact ⟨rfl, e1, List.length_eq_zero_iff.1 (by omega)⟩
      | left =>
        simp only [Heads] at hd
        split at hd
        · omega
        · have := hatc hd; omega
      | right =>
        simp only [Heads] at hd
        split at hd
        · omega
        · have := hatc hd; omega
      | up => have := hd.2; omega
      | down => have := hd.2; omega
      | begin => have := hd.2; omega
      | «end» => have := hatc hd; omega
      | lineBegin => have := hd.2; omega
    constructor
    · rintro ⟨e, he'⟩
      have hw0 : w = 0 := by
        apply Classical.byContradiction
        intro hw0
        rw [o1 ⟨by omega, .inl hsuf⟩] at he'
        cases he'
      obtain ⟨e1, e2, e3⟩ := hw hw0
      subst e2 e3
      exact ⟨e1, h1, pre, suf, hl⟩
    · rintro ⟨rfl, _, pre', suf', hl'⟩
      apply o2
      obtain ⟨⟨c', k⟩, p, l, sf, hl2, e⟩ := hd
      obtain ⟨rfl, _⟩ := at_unique k hat
      obtain ⟨_, e2, _⟩ := hl2.unique hl'
      subst e2
      simp at e
      omega

/-- C20, texts with characters of more than one byte: once the cursor is on the newline that ends a line with fewer
grapheme clusters than bytes, every motion crashes - whatever the rest of the text. -/
theorem C20_multibyte_crashes {t : PieceTable} (h : SteadyHistory t) {s : Bytes} (hs : Shows t s)
    {seg : Segmentation} (hseg : IsSegmentation seg) {n : Nat} {pre line suf : Bytes} (hl : LineAt s n pre line suf)
    (hsuf : suf ≠ []) (hmb : (seg line).length < line.length) {sel : Selection}
    (hc : sel.cursor = pre.length + line.length) (d : CursorTarget) (ext : Bool) :
    ∃ e, Selection.move seg t d ext sel = .error e := by
  have hw := (reachable_ready (steady_any h)).wf
  have hn := steady_newlines h
  have hcont := (shows_iff hw).1 hs
  subst hcont
  have hlen := hl.length
  have := List.length_pos_iff.2 hsuf
  unfold Selection.move
  rw [hw.len_eq, if_neg (by omega), hc, offsetToCoord_newline hw hn hl hsuf]
  simp only [except_bind_ok]
  unfold Navigator.navigate Navigator.fromPosition
  dsimp only
  rw [coordToOffset_at hw hn hseg hl (by omega), if_neg (by omega)]
  exact ⟨_, rfl⟩

/-- `"é\n"` with the cursor on the newline. -/
example {seg : Segmentation} (hseg : IsSegmentation seg) (h1 : seg [195, 169] = [[195, 169]]) (d : CursorTarget) :
    ∃ e, Selection.move seg TE d false ⟨2, 2, 2⟩ = .error e := by
  have hst : SteadyHistory TE := .withText (by simp)
  exact C20_multibyte_crashes hst ((shows_iff (reachable_ready (steady_any hst)).wf).2 (by decide) : Shows TE [195, 169, 10])
    hseg (n := 1) (pre := []) (line := [195, 169]) (suf := [10])
    ⟨rfl, by decide, .inl rfl, by decide, .inr rfl, by decide⟩ (by simp) (by rw [h1]; decide) rfl d false

/-- `"abc\nd"`: no newline at the end -/
def TN : PieceTable := PieceTable.withText [97, 98, 99, 10, 100]

theorem TN_steady : SteadyHistory TN := .withText (by simp)
theorem TN_shows : Shows TN [97, 98, 99, 10, 100] :=
  (shows_iff (reachable_ready (steady_any TN_steady)).wf).2 (by decide)

/-- Down from the first column is fine, from the third it crashes. -/
example : Selection.move bytewise TN .down false ⟨0, 0, 1⟩ = .ok ⟨4, 4, 1⟩ ∧
    ∃ e, Selection.move bytewise TN .down false ⟨2, 2, 3⟩ = .error e := by
  have hl : LineAt [97, 98, 99, 10, 100] 2 [97, 98, 99, 10] [100] [] :=
    ⟨rfl, by decide, .inr (by decide), by decide, .inl rfl, by decide⟩
  have h1 : LineAt [97, 98, 99, 10, 100] 1 [] [97, 98, 99] [10, 100] :=
    ⟨rfl, by decide, .inl rfl, by decide, .inr rfl, by decide⟩
  have hd : ∀ o c, At [97, 98, 99, 10, 100] o 1 c → Heads [97, 98, 99, 10, 100] o c .down 2 c := fun o c k =>
    ⟨⟨1, c, k, by decide⟩, rfl⟩
  refine ⟨(C20_motion (sel := ⟨0, 0, 1⟩) TN_steady TN_shows (by unfold Ascii; decide) bytewise_ok (by decide) (by decide) false
    (hd 0 1 ⟨_, _, _, h1, by decide, by decide, rfl⟩) hl).1 (by decide), ?_⟩
  exact (C20_motion (sel := ⟨2, 2, 3⟩) TN_steady TN_shows (by unfold Ascii; decide) bytewise_ok (by decide) (by decide) false
    (hd 2 3 ⟨_, _, _, h1, by decide, by decide, rfl⟩) hl).2 (by decide)

/-- The end of the empty second line of `"ab\n\nc\n"`. -/
example : ∃ e, Selection.move bytewise TA .lineEnd false ⟨3, 3, 1⟩ = .error e :=
  (C20_crash_iff (forward_steady TA_forward) TA_shows textA_ascii textA_ends bytewise_ok (by unfold Inside; decide) .lineEnd
    false (n := 2) (c := 1) ⟨[97, 98, 10], [], [10, 99, 10], ⟨rfl, by decide, .inr rfl, by decide, .inr rfl, by decide⟩,
      by decide, by decide, rfl⟩).2 ⟨rfl, by decide, [97, 98, 10], [10, 99, 10],
        ⟨rfl, by decide, .inr rfl, by decide, .inr rfl, by decide⟩⟩

end Ced.Props

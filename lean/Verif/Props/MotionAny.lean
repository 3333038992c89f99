import Verif.Proofs.MotionAny
import Verif.Props.Motion

/-!
# Motions and selections in texts of any characters (C87)

`C87_motion` and `C87_selected` are exact, for every text, every segmentation into grapheme clusters and every cursor;
the rest says what follows for characters of more than one byte.
-/

namespace Ced.Props
open Spec PieceTable

theorem navigate_cluster {t : PieceTable} (hw : t.WF) (hn : t.NewlinesOk) {seg : Segmentation}
    (hseg : IsSegmentation seg) {n c : Nat} (h1 : 1 ≤ c) {pre line suf : Bytes} (hl : LineAt t.content n pre line suf) :
    Navigator.navigate seg t (some ⟨n, c⟩) =
      .ok (if c ≤ (seg line).length + 1 then some ⟨⟨n, c⟩, c⟩ else none) := by
  unfold Navigator.navigate Navigator.fromPosition
  simp only [coordToOffset_at hw hn hseg hl h1, except_bind_ok, except_pure]
  split <;> simp

/-- the line read off an offset -/
theorem readAs_line {seg : Segmentation} {s : Bytes} {o n c : Nat} (h : ReadAs seg s o n c) :
    ∃ pre line suf, LineAt s n pre line suf := by
  obtain ⟨pre, line, suf, hl, _⟩ := h
  exact ⟨pre, line, suf, hl⟩

/-- C87: in a text of any characters a motion goes to the cluster of the wished column of the line it is headed for, or
to the end of that line if it has fewer clusters, and it keeps the wished column; in all other cases - it is not headed
anywhere, that line or column does not exist, or it would go behind the last byte of the text - it crashes. -/
theorem C87_motion {t : PieceTable} (h : SteadyHistory t) {s : Bytes} (hs : Shows t s)
    {seg : Segmentation} (hseg : IsSegmentation seg) {sel : Selection} (ho : sel.cursor < s.length) (h1 : s.length ≠ 1)
    (d : CursorTarget) (ext : Bool) (sel' : Selection) :
    Selection.move seg t d ext sel = .ok sel' ↔
      ∃ n w o, Headed seg s sel.cursor sel.targetCol d n w ∧ LandsOn seg s n w o ∧ o < s.length ∧
        sel' = ⟨if ext then sel.anchor else o, o, w⟩ := by
  have hw := (reachable_ready (steady_any h)).wf
  have hn := steady_newlines h
  have hc := (shows_iff hw).1 hs
  subst hc
  have hne : t.content ≠ [] := by intro e; rw [e] at ho; simp at ho
  obtain ⟨m, c, hr⟩ := readAs_exists (seg := seg) hseg ho
  obtain ⟨pre, line, suf, hl⟩ := readAs_line hr
  have hc1 := (readAs_lt hseg hr).2
  unfold Selection.move
  rw [hw.len_eq, if_neg h1, offsetToCoord_read hw hn hseg hr]
  simp only [except_bind_ok]
  rw [navigate_cluster hw hn hseg hc1 hl]
  simp only [except_bind_ok]
  by_cases hcc : c ≤ (seg line).length + 1
  · rw [if_pos hcc]
    simp only [unwrapR, except_bind_ok]
    have hcl : ClusterAt seg t.content (pre.length + ((seg line).take (c - 1)).flatten.length) m c :=
      ⟨pre, line, suf, hl, hc1, hcc, rfl⟩
    obtain ⟨k1, k2⟩ := Navigator.move_any (tc := sel.targetCol) hw hn hseg hne hcl d
    constructor
    · intro e
      cases hm : Navigator.move seg t ⟨⟨m, c⟩, sel.targetCol⟩ d with
      | error x => rw [hm] at e; cases e
      | ok nv =>
        rw [hm] at e
        simp only [except_bind_ok] at e
        cases hp : nv.pos seg t with
        | error x => rw [hp] at e; cases e
        | ok q =>
          rw [hp] at e
          simp only [except_bind_ok, except_pure, Except.ok.injEq] at e
          obtain ⟨l1, l2⟩ := (Navigator.pos_any (n := nv.cursor.l) (c := nv.cursor.c) (w := nv.targetCol) hw hn hseg hne).2 q hp
          exact ⟨_, _, _, ⟨m, c, _, hr, hcl, k2 nv hm⟩, l1, l2, e.symm⟩
    · rintro ⟨n, w, o, ⟨m', c', p', hr', hcl', hd⟩, hlo, hlt, rfl⟩
      obtain ⟨rfl, rfl⟩ := readAs_unique hw hn hseg hr hr'
      have hpe : p' = pre.length + ((seg line).take (c - 1)).flatten.length := by
        have := (coordToOffset_cluster hw hn hseg hcl').symm.trans (coordToOffset_cluster hw hn hseg hcl)
        simpa using this
      subst hpe
      obtain ⟨c'', e⟩ := k1 n w hd
      rw [e]
      simp only [except_bind_ok]
      obtain ⟨q, e2, hq⟩ := (Navigator.pos_any (c := c'') hw hn hseg hne).1 o hlo hlt
      rw [e2]
      simp only [except_bind_ok, except_pure, hq]
  · rw [if_neg hcc]
    constructor
    · intro e; cases e
    · rintro ⟨n, w, o, ⟨m', c', p', hr', ⟨pre', line', suf', hl', k1, k2, _⟩, _⟩, _⟩
      obtain ⟨rfl, rfl⟩ := readAs_unique hw hn hseg hr hr'
      obtain ⟨_, e, _⟩ := hl.unique hl'
      rw [e] at k2
      exact absurd k2 hcc

/-- C87: in a text of any characters, a selection whose last end is the last byte of the text is the range between its
ends, inclusive; any other one ends where moving right from its last end would put the cursor, the wished column being
the column of that end; and it crashes exactly when that motion does. -/
theorem C87_selected {t : PieceTable} (h : SteadyHistory t) {s : Bytes} (hs : Shows t s)
    {seg : Segmentation} (hseg : IsSegmentation seg) {sel : Selection} (h1 : sel.anchor < s.length)
    (h2 : sel.cursor < s.length) (a b : Nat) :
    selectionRange seg t sel = .ok (a, b) ↔
      a = min sel.anchor sel.cursor ∧
      (max sel.anchor sel.cursor + 1 = s.length ∧ b = s.length ∨
       max sel.anchor sel.cursor + 1 < s.length ∧ ∃ c m n w, ReadAs seg s (max sel.anchor sel.cursor) m c ∧
        Headed seg s (max sel.anchor sel.cursor) c .right n w ∧ LandsOn seg s n w b ∧ b < s.length) := by
  have hw := (reachable_ready (steady_any h)).wf
  have hn := steady_newlines h
  have hc := (shows_iff hw).1 hs
  subst hc
  have hne : t.content ≠ [] := by intro e; rw [e] at h1; simp at h1
  have hf : sel.first = min sel.anchor sel.cursor := by unfold Selection.first; split <;> omega
  have hla : sel.last = max sel.anchor sel.cursor := by unfold Selection.last; split <;> omega
  generalize max sel.anchor sel.cursor = z at *
  have hz : z < t.content.length := by rw [← hla]; unfold Selection.last; split <;> omega
  unfold selectionRange
  rw [maxOffset_eq hw, hla, hf]
  simp only [except_bind_ok]
  by_cases he : z + 1 = t.content.length
  · rw [if_pos (by omega)]
    simp only [except_pure, Except.ok.injEq, Prod.mk.injEq]
    constructor
    · rintro ⟨rfl, rfl⟩; exact ⟨rfl, .inl ⟨he, he⟩⟩
    · rintro ⟨rfl, ⟨_, rfl⟩ | ⟨h, _⟩⟩
      · exact ⟨rfl, he⟩
      · omega
  · rw [if_neg (by omega)]
    obtain ⟨m, c, hr⟩ := readAs_exists (seg := seg) hseg hz
    obtain ⟨pre, line, suf, hl⟩ := readAs_line hr
    have hc1 := (readAs_lt hseg hr).2
    rw [offsetToCoord_read hw hn hseg hr]
    simp only [except_bind_ok]
    rw [navigate_cluster hw hn hseg hc1 hl]
    simp only [except_bind_ok]
    by_cases hcc : c ≤ (seg line).length + 1
    · rw [if_pos hcc]
      simp only [unwrapR, except_bind_ok]
      have hcl : ClusterAt seg t.content (pre.length + ((seg line).take (c - 1)).flatten.length) m c :=
        ⟨pre, line, suf, hl, hc1, hcc, rfl⟩
      obtain ⟨k1, k2⟩ := Navigator.move_any (tc := c) hw hn hseg hne hcl .right
      simp only [Navigator.move] at k1 k2
      constructor
      · intro e
        cases hm : Navigator.next seg t ⟨⟨m, c⟩, c⟩ with
        | error x => rw [hm] at e; cases e
        | ok nv =>
          rw [hm] at e
          simp only [except_bind_ok] at e
          cases hp : nv.pos seg t with
          | error x => rw [hp] at e; cases e
          | ok q =>
            rw [hp] at e
            simp only [except_bind_ok, except_pure, Except.ok.injEq, Prod.mk.injEq] at e
            obtain ⟨l1, l2⟩ := (Navigator.pos_any (n := nv.cursor.l) (c := nv.cursor.c) (w := nv.targetCol) hw hn hseg hne).2 q hp
            obtain ⟨rfl, rfl⟩ := e
            exact ⟨rfl, .inr ⟨by omega, c, m, _, _, hr, ⟨m, c, _, hr, hcl, k2 nv hm⟩, l1, l2⟩⟩
      · rintro ⟨rfl, ⟨h, _⟩ | ⟨_, c0, m0, n, w, hr0, ⟨m', c', p', hr', hcl', hd⟩, hlo, hlt⟩⟩
        · omega
        obtain ⟨rfl, rfl⟩ := readAs_unique hw hn hseg hr hr'
        obtain ⟨rfl, rfl⟩ := readAs_unique hw hn hseg hr hr0
        have hpe : p' = pre.length + ((seg line).take (c - 1)).flatten.length := by
          have := (coordToOffset_cluster hw hn hseg hcl').symm.trans (coordToOffset_cluster hw hn hseg hcl)
          simpa using this
        subst hpe
        obtain ⟨c'', e⟩ := k1 n w hd
        rw [e]
        simp only [except_bind_ok]
        obtain ⟨q, e2, hq⟩ := (Navigator.pos_any (c := c'') hw hn hseg hne).1 b hlo hlt
        rw [e2]
        simp only [except_bind_ok, except_pure, hq]
    · rw [if_neg hcc]
      constructor
      · intro e; cases e
      · rintro ⟨_, ⟨h, _⟩ | ⟨_, c0, m0, n, w, _, ⟨m', c', p', hr', ⟨pre', line', suf', hl', k1, k2, _⟩, _⟩, _⟩⟩
        · omega
        obtain ⟨rfl, rfl⟩ := readAs_unique hw hn hseg hr hr'
        obtain ⟨_, e, _⟩ := hl.unique hl'
        rw [e] at k2
        exact absurd k2 hcc

/-! ## Characters of more than one byte -/

theorem length_le_flatten {gs : List Bytes} (h : ∀ g ∈ gs, g ≠ []) : gs.length ≤ gs.flatten.length := by
  induction gs with
  | nil => simp
  | cons x gs ih =>
    have := List.length_pos_iff.2 (h x (by simp))
    have := ih fun g hg => h g (by simp [hg])
    simp only [List.length_cons, List.flatten_cons, List.length_append]
    omega

section
variable {seg : Segmentation} {s pre line suf : Bytes} {n : Nat} {before after : List Bytes} {g : Bytes}

/-- the cluster `g` of a line -/
theorem cluster_at (hl : LineAt s n pre line suf) (hg : seg line = before ++ g :: after) :
    ClusterAt seg s (pre.length + before.flatten.length) n (before.length + 1) := by
  refine ⟨pre, line, suf, hl, by omega, by rw [hg]; simp, ?_⟩
  rw [hg]; simp

theorem cluster_lands (hl : LineAt s n pre line suf) (hg : seg line = before ++ g :: after) :
    LandsOn seg s n (before.length + 1) (pre.length + before.flatten.length) := by
  refine ⟨pre, line, suf, hl, by omega, ?_⟩
  rw [hg, Nat.min_eq_left (by simp)]; simp

theorem cluster_bytes (hseg : IsSegmentation seg) (hg : seg line = before ++ g :: after) :
    line = before.flatten ++ (g ++ after.flatten) := by
  have := hseg.flatten line
  rw [hg] at this
  simpa using this.symm

theorem cluster_get (hseg : IsSegmentation seg) (hl : LineAt s n pre line suf) (hg : seg line = before ++ g :: after) :
    ∃ b, s[pre.length + before.flatten.length]? = some b ∧ b ≠ NL := by
  have hb := cluster_bytes hseg hg
  have hne := hseg.nonempty line g (by rw [hg]; simp)
  obtain ⟨b, bs, rfl⟩ := List.exists_cons_of_ne_nil hne
  refine ⟨b, ?_, ?_⟩
  · rw [hl.split, hb]; simp
  · intro e
    apply hl.noNewline
    rw [hb, e]; simp
end

/-- C87, violated: on a line after the first, moving right from a character of more than one byte does not leave it
(unless nothing follows it): the cursor goes to the first byte of this very character. -/
theorem C87_right_stuck_refuted {t : PieceTable} (h : SteadyHistory t) {s : Bytes} (hs : Shows t s)
    {seg : Segmentation} (hseg : IsSegmentation seg) {n : Nat} {pre line suf : Bytes} (hl : LineAt s n pre line suf)
    (h1 : 1 < n) {before after : List Bytes} {g : Bytes} (hg : seg line = before ++ g :: after) (h2 : 2 ≤ g.length)
    (hmore : after.flatten ++ suf ≠ []) {sel : Selection} {k : Nat} (hk : k < g.length)
    (hc : sel.cursor = pre.length + before.flatten.length + k) (ext : Bool) :
    Selection.move seg t .right ext sel = .ok
      ⟨if ext then sel.anchor else pre.length + before.flatten.length, pre.length + before.flatten.length,
        before.length + 1⟩ := by
  have hlen := hl.length
  have hb := congrArg List.length (cluster_bytes hseg hg)
  simp only [List.length_append] at hb
  have hpre : 0 < pre.length := List.length_pos_iff.2 fun e => by have := hl.pre_eq_nil.1 e; omega
  have hm := List.length_pos_iff.2 hmore
  simp only [List.length_append] at hm
  obtain ⟨b, hb1, hb2⟩ := cluster_get hseg hl hg
  have read : ∀ j, j < g.length → ReadAs seg s (pre.length + before.flatten.length + j) n (before.length + 1) := fun j hj =>
    ⟨pre, line, suf, hl, .inr (.inr ⟨by omega, before, g, after, j, hg, hj, rfl, rfl⟩)⟩
  rw [C87_motion h hs hseg (by omega) (by omega)]
  refine ⟨n, before.length + 1, pre.length + before.flatten.length, ?_, cluster_lands hl hg, by omega, rfl⟩
  refine ⟨n, before.length + 1, pre.length + before.flatten.length, by rw [hc]; exact read k hk, cluster_at hl hg, ?_⟩
  refine .right ?_ hb1 hb2 (read 1 (by omega))
  rintro ⟨pre', line', suf', hl', hh⟩
  obtain ⟨rfl, rfl, rfl⟩ := hl.unique hl'
  rcases hh with ⟨e1, e2, e3⟩ | ⟨e1, _⟩ | ⟨_, before', g', after', k', e1, e2, e3, e4⟩
  · have := length_le_flatten (gs := before) fun x hx => hseg.nonempty _ x (by rw [hg]; simp [hx])
    omega
  · omega
  · rw [hg] at e1
    obtain ⟨rfl, e5⟩ := List.append_inj e1 (by omega)
    obtain ⟨rfl, rfl⟩ := List.cons.inj e5
    omega

/-- C87, violated: on a line after the first, selecting one character of more than one byte selects nothing (unless it
ends the text). -/
theorem C87_select_refuted {t : PieceTable} (h : SteadyHistory t) {s : Bytes} (hs : Shows t s)
    {seg : Segmentation} (hseg : IsSegmentation seg) {n : Nat} {pre line suf : Bytes} (hl : LineAt s n pre line suf)
    (h1 : 1 < n) {before after : List Bytes} {g : Bytes} (hg : seg line = before ++ g :: after) (h2 : 2 ≤ g.length)
    (hmore : after.flatten ++ suf ≠ []) {sel : Selection}
    (hc : sel.cursor = pre.length + before.flatten.length) (ha : sel.anchor = sel.cursor) :
    selectionRange seg t sel = .ok (sel.cursor, sel.cursor) := by
  have hlen := hl.length
  have hb := congrArg List.length (cluster_bytes hseg hg)
  simp only [List.length_append] at hb
  have hpre : 0 < pre.length := List.length_pos_iff.2 fun e => by have := hl.pre_eq_nil.1 e; omega
  have hm := List.length_pos_iff.2 hmore
  simp only [List.length_append] at hm
  have hst := C87_right_stuck_refuted h hs hseg hl h1 hg h2 hmore (sel := ⟨0, sel.cursor, before.length + 1⟩) (k := 0)
    (by omega) (by simpa using hc) true
  rw [C87_motion h hs hseg (by dsimp only; omega) (by omega)] at hst
  obtain ⟨n', w, o, hd, hlo, hlt, e⟩ := hst
  simp only [Selection.mk.injEq, if_true] at e
  obtain ⟨_, rfl, rfl⟩ := e
  rw [C87_selected h hs hseg (by omega) (by omega), ha, Nat.min_self, Nat.max_self]
  refine ⟨rfl, .inr ⟨by omega, before.length + 1, n, n', before.length + 1, ?_, hd, ?_, by omega⟩⟩
  · rw [hc]
    exact ⟨pre, line, suf, hl, .inr (.inr ⟨by omega, before, g, after, 0, hg, by omega, rfl, rfl⟩)⟩
  · rw [hc]; exact hlo

/-- C87: on a line after the first, moving left from any byte of a character but the first of the line goes to the
first byte of the character before it. -/
theorem C87_left {t : PieceTable} (h : SteadyHistory t) {s : Bytes} (hs : Shows t s)
    {seg : Segmentation} (hseg : IsSegmentation seg) {n : Nat} {pre line suf : Bytes} (hl : LineAt s n pre line suf)
    (h1 : 1 < n) {before after : List Bytes} {g' g : Bytes} (hg : seg line = before ++ g' :: g :: after)
    {sel : Selection} {k : Nat} (hk : k < g.length)
    (hc : sel.cursor = pre.length + (before ++ [g']).flatten.length + k) (ext : Bool) :
    Selection.move seg t .left ext sel = .ok
      ⟨if ext then sel.anchor else pre.length + before.flatten.length, pre.length + before.flatten.length,
        before.length + 1⟩ := by
  have hlen := hl.length
  have hg2 : seg line = (before ++ [g']) ++ g :: after := by rw [hg]; simp
  have hb := congrArg List.length (cluster_bytes hseg hg2)
  have hb' := congrArg List.length (cluster_bytes hseg hg)
  have hne := List.length_pos_iff.2 (hseg.nonempty line g' (by rw [hg]; simp))
  simp only [List.length_append] at hb hb'
  have hpre : 0 < pre.length := List.length_pos_iff.2 fun e => by have := hl.pre_eq_nil.1 e; omega
  rw [C87_motion h hs hseg (by omega) (by omega)]
  refine ⟨n, before.length + 1, pre.length + before.flatten.length, ?_, cluster_lands hl hg, by omega, rfl⟩
  refine ⟨n, (before ++ [g']).length + 1, pre.length + (before ++ [g']).flatten.length, ?_, cluster_at hl hg2, ?_⟩
  · rw [hc]
    exact ⟨pre, line, suf, hl, .inr (.inr ⟨by omega, before ++ [g'], g, after, k, hg2, hk, rfl, rfl⟩)⟩
  · exact .left (by simp) (by omega)

/-- C87, violated: "the end of the line" of a line that has fewer characters than bytes is its newline instead of its
last character, and then every motion crashes.  The cursor was anywhere inside this line, on a line after the first. -/
theorem C87_line_end_refuted {t : PieceTable} (h : SteadyHistory t) {s : Bytes} (hs : Shows t s)
    {seg : Segmentation} (hseg : IsSegmentation seg) {n : Nat} {pre line suf : Bytes} (hl : LineAt s n pre line suf)
    (h1 : 1 < n) (hsuf : suf ≠ []) (hmb : (seg line).length < line.length) {sel : Selection}
    (hc1 : pre.length ≤ sel.cursor) (hc2 : sel.cursor < pre.length + line.length) (ext : Bool) :
    ∃ sel', Selection.move seg t .lineEnd ext sel = .ok sel' ∧ sel'.cursor = pre.length + line.length ∧
      ∀ d ext', ∃ e, Selection.move seg t d ext' sel' = .error e := by
  have hlen := hl.length
  have hsp := List.length_pos_iff.2 hsuf
  have hpre : 0 < pre.length := List.length_pos_iff.2 fun e => by have := hl.pre_eq_nil.1 e; omega
  refine ⟨⟨if ext then sel.anchor else pre.length + line.length, pre.length + line.length, line.length⟩, ?_, rfl, ?_⟩
  · rw [C87_motion h hs hseg (by omega) (by omega)]
    have hk : sel.cursor - pre.length < (seg line).flatten.length := by rw [hseg.flatten]; omega
    obtain ⟨before, g, after, j, e, hj, hk⟩ := in_cluster hk
    refine ⟨n, line.length, pre.length + line.length, ?_, ?_, by omega, rfl⟩
    · exact ⟨n, _, _, ⟨pre, line, suf, hl, .inr (.inr ⟨by omega, before, g, after, j, e, hj, by omega, rfl⟩)⟩,
        cluster_at hl e, .lineEnd hl⟩
    · refine ⟨pre, line, suf, hl, by omega, ?_⟩
      rw [Nat.min_eq_right (by omega), Nat.add_sub_cancel, List.take_of_length_le (Nat.le_refl _), hseg.flatten]
  · intro d ext'
    exact C20_multibyte_crashes h hs hseg hl hsuf hmb rfl d ext'

/-- C87, violated: on the first line the column is the number of bytes before the cursor, but it is looked up among the
characters.  Beyond as many bytes as the line has characters every motion crashes; before, moving left from the byte
after `o` others goes to character number `o` (from 1), which may well be right of the cursor. -/
theorem C87_first_line_refuted {t : PieceTable} (h : SteadyHistory t) {s : Bytes} (hs : Shows t s)
    {seg : Segmentation} (hseg : IsSegmentation seg) {line suf : Bytes} (hl : LineAt s 1 [] line suf)
    {sel : Selection} (hc : sel.cursor < line.length) (h1 : s.length ≠ 1) :
    ((seg line).length < sel.cursor → ∀ d ext, ∃ e, Selection.move seg t d ext sel = .error e) ∧
    (∀ before g after ext, seg line = before ++ g :: after → sel.cursor = before.length + 1 →
      Selection.move seg t .left ext sel = .ok
        ⟨if ext then sel.anchor else before.flatten.length, before.flatten.length, before.length + 1⟩) := by
  have hw := (reachable_ready (steady_any h)).wf
  have hn := steady_newlines h
  have hcont := (shows_iff hw).1 hs
  have hlen := hl.length
  simp only [List.length_nil] at hlen
  have hr : ReadAs seg s sel.cursor 1 (sel.cursor + 1) := ⟨[], line, suf, hl, .inr (.inl ⟨rfl, hc, rfl⟩)⟩
  constructor
  · intro hlt d ext
    cases hm : Selection.move seg t d ext sel with
    | error e => exact ⟨e, rfl⟩
    | ok sel' =>
      obtain ⟨n, w, o, ⟨m, c, p, hr', ⟨pre', line', suf', hl', k1, k2, _⟩, _⟩, _⟩ :=
        (C87_motion h hs hseg (by omega) h1 d ext sel').1 hm
      subst hcont
      obtain ⟨rfl, rfl⟩ := readAs_unique hw hn hseg hr hr'
      obtain ⟨_, e, _⟩ := hl.unique hl'
      rw [e] at k2
      omega
  · intro before g after ext hg ho
    have hb := congrArg List.length (cluster_bytes hseg hg)
    have hg0 := List.length_pos_iff.2 (hseg.nonempty line g (by rw [hg]; simp))
    simp only [List.length_append] at hb
    rw [C87_motion h hs hseg (by omega) h1]
    have hla := cluster_lands hl hg
    simp only [List.length_nil, Nat.zero_add] at hla
    refine ⟨1, before.length + 1, before.flatten.length, ?_, hla, by omega, rfl⟩
    refine ⟨1, sel.cursor + 1, _, hr, ⟨[], line, suf, hl, by omega, by rw [hg, ho]; simp, rfl⟩, ?_⟩
    rw [ho]
    exact .left rfl (by omega)

/-! ## `"a\nbé\n"` and `"ééb\n"`, where `é` is one cluster of two bytes -/

/-- every byte a cluster, except that the two bytes of `é` are one -/
def clusters : Segmentation
  | [] => []
  | 195 :: 169 :: bs => [195, 169] :: clusters bs
  | b :: bs => [b] :: clusters bs

theorem clusters_ok : IsSegmentation clusters where
  flatten l := by
    fun_induction clusters l with
    | case1 => rfl
    | case2 bs ih => simp [ih]
    | case3 b bs _ ih => simp [ih]
  nonempty l g hg := by
    fun_induction clusters l with
    | case1 => simp at hg
    | case2 bs ih =>
      rcases List.mem_cons.1 hg with rfl | h
      · simp
      · exact ih h
    | case3 b bs _ ih =>
      rcases List.mem_cons.1 hg with rfl | h
      · simp
      · exact ih h
  ascii l ha _ := by
    fun_induction clusters l with
    | case1 => rfl
    | case2 bs ih => have := ha 195 (by simp); exact absurd this (by decide)
    | case3 b bs _ ih =>
      rw [ih (fun x hx => ha x (by simp [hx]))]
      · rfl
      · rename_i hh
        rcases hh with hh | hh
        · exact .inl fun hm => hh (by simp [hm])
        · left; simp at hh; rw [hh.2]; simp

/-- `"a\nbé\n"` -/
def TEL : PieceTable := PieceTable.withText [97, 10, 98, 195, 169, 10]

theorem TEL_forward : ForwardHistory TEL := .withText (by simp) trivial
theorem TEL_steady : SteadyHistory TEL := forward_steady TEL_forward
theorem TEL_shows : Shows TEL [97, 10, 98, 195, 169, 10] :=
  (shows_iff (reachable_ready (steady_any TEL_steady)).wf).2 (by decide)
theorem TEL_line : LineAt [97, 10, 98, 195, 169, 10] 2 [97, 10] [98, 195, 169] [10] :=
  ⟨rfl, by decide, .inr rfl, by decide, .inr rfl, by decide⟩
theorem TEL_clusters : clusters [98, 195, 169] = [[98]] ++ [195, 169] :: [] := by simp [clusters]

/-- Right of `é` is `é`, it is never passed; it cannot be selected; its left is `b`; the end of the line is a trap. -/
example : Selection.move clusters TEL .right false ⟨3, 3, 2⟩ = .ok ⟨3, 3, 2⟩ ∧
    selectionRange clusters TEL ⟨3, 3, 2⟩ = .ok (3, 3) ∧
    Selection.move clusters TEL .left false ⟨3, 3, 2⟩ = .ok ⟨2, 2, 1⟩ ∧
    ∃ sel', Selection.move clusters TEL .lineEnd false ⟨3, 3, 2⟩ = .ok sel' ∧ sel'.cursor = 5 ∧
      ∀ d ext', ∃ e, Selection.move clusters TEL d ext' sel' = .error e :=
  ⟨C87_right_stuck_refuted TEL_steady TEL_shows clusters_ok TEL_line (by omega) TEL_clusters (by decide) (by decide)
      (sel := ⟨3, 3, 2⟩) (k := 0) (by decide) rfl false,
   C87_select_refuted TEL_steady TEL_shows clusters_ok TEL_line (by omega) TEL_clusters (by decide) (by decide)
      (sel := ⟨3, 3, 2⟩) rfl rfl,
   C87_left TEL_steady TEL_shows clusters_ok TEL_line (by omega) (before := []) TEL_clusters
      (sel := ⟨3, 3, 2⟩) (k := 0) (by decide) rfl false,
   C87_line_end_refuted TEL_steady TEL_shows clusters_ok TEL_line (by omega) (by simp) (by rw [TEL_clusters]; decide)
      (sel := ⟨3, 3, 2⟩) (by decide) (by decide) false⟩

/-- `"ééb\n"`: left of the second `é` is itself, left of its second byte is `b`, and from `b` everything crashes. -/
def TEE : PieceTable := PieceTable.withText [195, 169, 195, 169, 98, 10]

example : Selection.move clusters TEE .left false ⟨2, 2, 2⟩ = .ok ⟨2, 2, 2⟩ ∧
    Selection.move clusters TEE .left false ⟨3, 3, 2⟩ = .ok ⟨4, 4, 3⟩ ∧
    ∀ d ext, ∃ e, Selection.move clusters TEE d ext ⟨4, 4, 2⟩ = .error e := by
  have hst : SteadyHistory TEE := .withText (by simp)
  have hsh : Shows TEE [195, 169, 195, 169, 98, 10] := (shows_iff (reachable_ready (steady_any hst)).wf).2 (by decide)
  have hl : LineAt [195, 169, 195, 169, 98, 10] 1 [] [195, 169, 195, 169, 98] [10] :=
    ⟨rfl, by decide, .inl rfl, by decide, .inr rfl, by decide⟩
  have hg : clusters [195, 169, 195, 169, 98] = [[195, 169], [195, 169], [98]] := by simp [clusters]
  exact ⟨(C87_first_line_refuted hst hsh clusters_ok hl (sel := ⟨2, 2, 2⟩) (by decide) (by decide)).2 [[195, 169]] _ _ false hg rfl,
    (C87_first_line_refuted hst hsh clusters_ok hl (sel := ⟨3, 3, 2⟩) (by decide) (by decide)).2
      [[195, 169], [195, 169]] _ _ false hg rfl,
    (C87_first_line_refuted hst hsh clusters_ok hl (sel := ⟨4, 4, 2⟩) (by decide) (by decide)).1 (by rw [hg]; decide)⟩

end Ced.Props

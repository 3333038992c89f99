import Verif.Spec.Tui
import Verif.Props.Connection
import Verif.Props.Hints
import Verif.Props.CoreDelete

/-! # The terminal: C60, C72-C76 -/

namespace Ced.Props
open Ced Ced.Spec Ced.Tui
variable {T : Type} {p : Paint T} {width height : Nat}

/-! ### Byte lengths and cuts -/

theorem byteLen_nil : Str.byteLen [] = 0 := rfl

theorem byteLen_cons (c : Char) (s : Str) : Str.byteLen (c :: s) = c.utf8Size + Str.byteLen s := by
  simp [Str.byteLen, Str.encode, String.length_utf8EncodeChar]

theorem byteLen_append (a b : Str) : Str.byteLen (a ++ b) = Str.byteLen a + Str.byteLen b := by
  simp [Str.byteLen, Str.encode]

theorem utf8Size_pos (c : Char) : 0 < c.utf8Size := by
  have := Char.utf8Size_pos c; omega

theorem utf8Size_ascii {c : Char} (h : c.val < 128) : c.utf8Size = 1 := by
  rw [Char.utf8Size]
  have h1 : c.val ≤ 127 := by
    rw [UInt32.le_iff_toNat_le]; rw [UInt32.lt_iff_toNat_lt] at h
    have e1 : (128 : UInt32).toNat = 128 := rfl
    have e2 : (127 : UInt32).toNat = 127 := rfl
    omega
  simp [h1]

theorem byteLen_ascii {s : Str} (h : AsciiStr s) : s.byteLen = s.length := by
  induction s with
  | nil => rfl
  | cons c s ih =>
    rw [byteLen_cons, utf8Size_ascii (h c (List.mem_cons_self ..)), ih fun c hc => h c (List.mem_cons_of_mem _ hc),
      List.length_cons]
    omega

theorem byteLen_rep {c : Char} (h : c.val < 128) (n : Nat) : (Str.rep c n).byteLen = n := by
  rw [byteLen_ascii, Str.rep, List.length_replicate]
  intro x hx
  rw [List.eq_of_mem_replicate hx]; exact h

theorem cut_ok {s r : Str} {n : Nat} (h : s.cut n = .ok r) : (∃ rest, s = r ++ rest) ∧ r.byteLen = n := by
  induction s generalizing n r with
  | nil =>
    cases n with
    | zero => cases h; exact ⟨⟨[], rfl⟩, rfl⟩
    | succ n => cases h
  | cons c s ih =>
    cases n with
    | zero => cases h; exact ⟨⟨c :: s, rfl⟩, rfl⟩
    | succ n =>
      rw [Str.cut] at h
      split at h
      · obtain ⟨r1, h1, h⟩ := bind_inv h
        cases h
        obtain ⟨⟨rest, e⟩, hl⟩ := ih h1
        refine ⟨⟨rest, by rw [e]; rfl⟩, ?_⟩
        rw [byteLen_cons, hl]; omega
      · cases h

theorem cut_append (r rest : Str) : (r ++ rest).cut r.byteLen = .ok r := by
  induction r with
  | nil => cases rest <;> rfl
  | cons c r ih =>
    rw [byteLen_cons]
    have hp := utf8Size_pos c
    obtain ⟨m, hm⟩ : ∃ m, c.utf8Size + Str.byteLen r = m + 1 := ⟨_, (by omega : _ = (c.utf8Size + Str.byteLen r - 1) + 1)⟩
    rw [hm, List.cons_append, Str.cut, if_pos (by omega), show m + 1 - c.utf8Size = Str.byteLen r by omega, ih]
    rfl

theorem cut_ascii {s : Str} {n : Nat} (h : AsciiStr s) (hn : n ≤ s.length) : s.cut n = .ok (s.take n) := by
  have e := cut_append (s.take n) (s.drop n)
  rw [List.take_append_drop, byteLen_ascii fun c hc => h c (List.mem_of_mem_take hc), List.length_take,
    Nat.min_eq_left hn] at e
  exact e

/-! ### C60: the rows of the view -/

/-- The loop of the view over its rows, one after the other. -/
def rowLoop (p : Paint T) (width height : Nat) : List (Row T) → List Str → R (List Str)
  | [], content => .ok content
  | .header b x y :: rows, content => do
    let h ← header width (T := T) { buffer := b, start := x, stop := y, lenses := [] }
    let _ ← add16 content.length 1
    rowLoop p width height rows (content ++ [h])
  | .line t :: rows, content => do
    let last ← subChecked height 1
    if content.length = last then return content
    let row ← lineRow p width t
    let _ ← add16 content.length 1
    rowLoop p width height rows (content ++ [row])

theorem add16_inv {a b n : Nat} (h : add16 a b = .ok n) : n = a + b ∧ a + b ≤ 65535 := by
  unfold add16 at h
  split at h
  · cases h; exact ⟨rfl, by assumption⟩
  · cases h

theorem lineRows_eq (lines : List T) (rows : List (Row T)) (content : List Str) (k : Nat → List Str → R (List Str))
    (hk : ∀ c, k c.length c = rowLoop p width height rows c) :
    (lineRows p width height lines content.length content >>= fun x =>
      if x.2.2 then .ok x.2.1 else k x.1 x.2.1) = rowLoop p width height (lines.map .line ++ rows) content := by
  induction lines generalizing content with
  | nil => exact hk content
  | cons t lines ih =>
    rw [List.map_cons, List.cons_append, rowLoop, lineRows]
    cases hh : subChecked height 1 with
    | error e => rfl
    | ok last =>
      simp only [except_bind_ok]
      split
      · rfl
      · cases hr : lineRow p width t with
        | error e => rfl
        | ok row =>
          simp only [except_bind_ok]
          cases ha : add16 content.length 1 with
          | error e => rfl
          | ok i =>
            simp only [except_bind_ok]
            have := ih (content ++ [row])
            rw [List.length_append, List.length_singleton] at this
            rw [(add16_inv ha).1]
            exact this

theorem lensRows_eq (lenses : List (RemoteLens T)) (rows : List (Row T)) (content : List Str)
    (k : Nat → List Str → R (List Str)) (hk : ∀ c, k c.length c = rowLoop p width height rows c) :
    (lensRows p width height lenses content.length content >>= fun x =>
      if x.2.2 then .ok x.2.1 else k x.1 x.2.1) =
      rowLoop p width height ((lenses.flatMap (·.lines)).map .line ++ rows) content := by
  induction lenses generalizing content with
  | nil => exact hk content
  | cons l lenses ih =>
    rw [List.flatMap_cons, List.map_append, List.append_assoc, ← lineRows_eq l.lines _ content
      (fun i c => lensRows p width height lenses i c >>= fun x => if x.2.2 then .ok x.2.1 else k x.1 x.2.1) (fun c => ih c),
      lensRows]
    cases lineRows p width height l.lines content.length content with
    | error e => rfl
    | ok x =>
      obtain ⟨i, c, s⟩ := x
      cases s <;> rfl

theorem itemRows_eq (view : List (RemoteItem T)) (content : List Str) :
    itemRows p width height view content.length content = rowLoop p width height (rowsOf view) content := by
  induction view generalizing content with
  | nil => rfl
  | cons item view ih =>
    have e : rowsOf (item :: view) = .header item.buffer item.start item.stop ::
      ((item.lenses.flatMap (·.lines)).map Row.line ++ rowsOf view) := rfl
    rw [e, rowLoop, itemRows]
    show (header width item >>= _) = (header width item >>= _)
    cases header width item with
    | error e => rfl
    | ok h =>
      simp only [except_bind_ok]
      cases ha : add16 content.length 1 with
      | error e => rfl
      | ok i =>
        simp only [except_bind_ok]
        rw [← lensRows_eq item.lenses (rowsOf view) (content ++ [h]) (fun i c => itemRows p width height view i c) (fun c => ih c)]
        rw [(add16_inv ha).1, List.length_append, List.length_singleton]
        cases lensRows p width height item.lenses (content.length + 1) (content ++ [h]) with
        | error e => rfl
        | ok x =>
          obtain ⟨i, c, s⟩ := x
          cases s <;> rfl

/-- The rows that are drawn: those above the last row of the screen when the row that would come there is a line;
otherwise all of them. -/
def drawn (height : Nat) (rows : List (Row T)) : List (Row T) :=
  if (rows[height - 1]?).any Row.isLine then rows.take (height - 1) else rows

/-- The same, when `i` rows are drawn already. -/
def drawnFrom (height i : Nat) (rows : List (Row T)) : List (Row T) :=
  if i ≤ height - 1 ∧ (rows[height - 1 - i]?).any Row.isLine then rows.take (height - 1 - i) else rows

theorem drawnFrom_line_stop (i : Nat) (t : T) (rows : List (Row T)) (h : i = height - 1) :
    drawnFrom height i (.line t :: rows) = [] := by
  unfold drawnFrom
  subst h
  simp [Row.isLine]

theorem drawnFrom_cons (i : Nat) (r : Row T) (rows : List (Row T)) (h : i ≠ height - 1 ∨ r.isLine = false) :
    drawnFrom height i (r :: rows) = r :: drawnFrom height (i + 1) rows := by
  unfold drawnFrom
  by_cases h1 : i ≤ height - 1
  · by_cases h2 : i = height - 1
    · subst h2
      rw [if_neg (by simp; simpa using h), if_neg (by omega)]
    · have e : height - 1 - i = (height - 1 - (i + 1)) + 1 := by omega
      have h3 : i + 1 ≤ height - 1 := by omega
      rw [e, List.getElem?_cons_succ, List.take_succ_cons]
      by_cases h4 : ((rows[height - 1 - (i + 1)]?).any Row.isLine) = true
      · rw [if_pos ⟨h1, h4⟩, if_pos ⟨h3, h4⟩]
      · rw [if_neg fun x => h4 x.2, if_neg fun x => h4 x.2]
  · rw [if_neg fun x => h1 x.1, if_neg (by omega)]

theorem header_shown {b : Str} {x y : Nat} {l : List (RemoteLens T)} {s : Str}
    (h : header width { buffer := b, start := x, stop := y, lenses := l } = .ok s) :
    RowShown p width (.header b x y) s := by
  unfold header at h
  obtain ⟨a, h1, h⟩ := bind_inv h
  obtain ⟨c, h2, h⟩ := bind_inv h
  obtain ⟨d, h3, h⟩ := bind_inv h
  cases h
  unfold subChecked at h1 h2 h3
  split at h1 <;> cases h1
  split at h2 <;> cases h2
  split at h3 <;> cases h3
  refine ⟨_, by simp [Str.rep]; rfl, ?_⟩
  simp only [byteLen_append, byteLen_rep (c := '-') (by decide)] at *
  have e1 : Str.byteLen ['-', '['] = 2 := by decide
  have e2 : Str.byteLen [']', '['] = 2 := by decide
  have e3 : Str.byteLen [']'] = 1 := by decide
  omega

theorem line_shown {t : T} {s : Str} (h : lineRow p width t = .ok s) : RowShown p width (.line t) s := by
  unfold lineRow at h
  simp only [RowShown]
  split at h
  · rw [if_neg (by omega)]; exact cut_ok h
  · cases h; rw [if_pos (by omega)]

theorem rowLoop_ok {rows : List (Row T)} {content out : List Str} (h : rowLoop p width height rows content = .ok out) :
    ∃ new, out = content ++ new ∧ List.Forall₂ (RowShown p width) (drawnFrom height content.length rows) new := by
  induction rows generalizing content with
  | nil =>
    refine ⟨[], by cases h; simp, ?_⟩
    have : drawnFrom height content.length ([] : List (Row T)) = [] := by unfold drawnFrom; split <;> simp
    rw [this]; exact .nil
  | cons r rows ih =>
    have step : ∀ s, RowShown p width r s → (content.length ≠ height - 1 ∨ r.isLine = false) →
        rowLoop p width height rows (content ++ [s]) = .ok out →
        ∃ new, out = content ++ new ∧ List.Forall₂ (RowShown p width) (drawnFrom height content.length (r :: rows)) new := by
      intro s hs hne h'
      obtain ⟨new, e, hf⟩ := ih h'
      refine ⟨s :: new, by rw [e]; simp, ?_⟩
      rw [drawnFrom_cons _ _ _ hne]
      rw [List.length_append, List.length_singleton] at hf
      exact .cons hs hf
    cases r with
    | header b x y =>
      rw [rowLoop] at h
      obtain ⟨s, h1, h⟩ := bind_inv h
      obtain ⟨_, _, h⟩ := bind_inv h
      exact step s (header_shown h1) (.inr rfl) h
    | line t =>
      rw [rowLoop] at h
      obtain ⟨last, h1, h⟩ := bind_inv h
      unfold subChecked at h1
      split at h1 <;> cases h1
      split at h
      · rename_i hl
        refine ⟨[], by cases h; simp, ?_⟩
        rw [drawnFrom_line_stop _ _ _ hl]; exact .nil
      · rename_i hl
        obtain ⟨s, h2, h⟩ := bind_inv h
        obtain ⟨_, _, h⟩ := bind_inv h
        exact step s (line_shown h2) (.inl hl) h

theorem drawn_eq (rows : List (Row T)) : drawnFrom height 0 rows = drawn height rows := by
  simp [drawnFrom, drawn]

/-- C60: when the view is drawn, the rows printed from the top of the screen are those of the view, in order, each cut or
padded to the width; and all of them are printed, except that those from the last row of the screen on are left out when
the first of these is a line. -/
theorem C60_rows {s : ConnectionState T} {ds : List Draw} (h : drawView p width height s = .ok ds) :
    ∃ content status, ds = [.clear, .at 0 0 false (Str.join str!"\r\n" content)] ++ status ∧
      drawStatus p width height s = .ok status ∧
      List.Forall₂ (RowShown p width) (drawn height (rowsOf s.view)) content := by
  unfold drawView at h
  obtain ⟨content, h1, h⟩ := bind_inv h
  obtain ⟨status, h2, h⟩ := bind_inv h
  cases h
  refine ⟨content, status, rfl, h2, ?_⟩
  have := itemRows_eq (p := p) (width := width) (height := height) s.view []
  rw [List.length_nil, h1] at this
  obtain ⟨new, e, hf⟩ := rowLoop_ok this.symm
  rw [List.nil_append] at e
  subst e
  rw [← drawn_eq]; exact hf

/-- C60: so the view leaves the last row of the screen to the status line, exactly when it is short enough or when what
would come on the last row is a line of a buffer. -/
theorem C60_fits (view : List (RemoteItem T)) :
    (drawn height (rowsOf view)).length ≤ height - 1 ↔
      (rowsOf view).length ≤ height - 1 ∨ ∃ t, (rowsOf view)[height - 1]? = some (.line t) := by
  unfold drawn
  cases hr : (rowsOf view)[height - 1]? with
  | none => simp
  | some r =>
    cases r with
    | header b x y => simp [Row.isLine]
    | line t => simp [Row.isLine]; omega

/-- C60: a view of one buffer always leaves the last row of the screen to the status line, on a screen of two rows or
more. -/
theorem C60_one (item : RemoteItem T) (hh : 2 ≤ height) : (drawn height (rowsOf [item])).length ≤ height - 1 := by
  rw [C60_fits]
  by_cases h : (rowsOf [item]).length ≤ height - 1
  · exact .inl h
  · right
    obtain ⟨k, hk⟩ : ∃ k, height - 1 = k + 1 := ⟨height - 2, by omega⟩
    rw [hk] at h ⊢
    simp only [rowsOf, List.flatMap_cons, List.flatMap_nil, List.append_nil, List.length_cons, List.length_map] at h ⊢
    rw [List.getElem?_cons_succ, List.getElem?_map]
    rw [List.getElem?_eq_getElem (by omega)]
    exact ⟨_, rfl⟩

/-- C60 is false of several buffers: when the header of a buffer comes on the last row, the view is printed to its end,
whatever its length. -/
theorem C60_overflow_refuted {view : List (RemoteItem T)} {b : Str} {x y : Nat}
    (h : (rowsOf view)[height - 1]? = some (.header b x y)) : drawn height (rowsOf view) = rowsOf view := by
  unfold drawn
  rw [h]; rfl

theorem take_of_append {a b rest : Str} (h : b = a ++ rest) : a = b.take a.length := by
  subst h; simp

/-- C60: a line of ASCII characters without decoration is drawn as its first characters, as many as the screen is
wide. -/
theorem C60_line {t : T} (ht : PlainText p t) {s : Str} (h : RowShown p width (.line t) s) :
    s = (p.plain t).take width ∧ s.length ≤ width := by
  have key : s = (p.plain t).take width := by
    simp only [RowShown] at h
    rw [ht.len, ht.render] at h
    split at h
    · rw [h, List.take_of_length_le (by assumption)]
    · obtain ⟨⟨rest, e⟩, hl⟩ := h
      have ha : AsciiStr s := fun c hc => ht.ascii c (e ▸ List.mem_append_left _ hc)
      rw [byteLen_ascii ha] at hl
      rw [← hl]; exact take_of_append e
  exact ⟨key, by rw [key, List.length_take]; omega⟩

/-- The header of a buffer takes at least this many bytes. -/
def headerLen (b : Str) (x y : Nat) : Nat := 5 + b.byteLen + (natStr x ++ [':'] ++ natStr y).byteLen

theorem header_iff (b : Str) (x y : Nat) (l : List (RemoteLens T)) :
    (∃ s, header width { buffer := b, start := x, stop := y, lenses := l } = .ok s) ↔ headerLen b x y ≤ width := by
  unfold header headerLen
  simp only
  constructor
  · rintro ⟨s, h⟩
    obtain ⟨a, h1, h⟩ := bind_inv h
    obtain ⟨c, h2, h⟩ := bind_inv h
    obtain ⟨d, h3, h⟩ := bind_inv h
    unfold subChecked at h1 h2 h3
    split at h1 <;> cases h1
    split at h2 <;> cases h2
    split at h3 <;> cases h3
    omega
  · intro h
    rw [subChecked_ok (by omega)]
    simp only [except_bind_ok]
    rw [subChecked_ok (by omega)]
    simp only [except_bind_ok]
    rw [subChecked_ok (by omega)]
    exact ⟨_, rfl⟩

/-- A row that can be drawn: a header that is not wider than the screen, a line that can be cut. -/
def Drawable (p : Paint T) (width : Nat) : Row T → Prop
  | .header b x y => headerLen b x y ≤ width
  | .line t => ∃ s, lineRow p width t = .ok s

theorem plain_drawable {t : T} (ht : PlainText p t) : Drawable p width (.line t) := by
  unfold Drawable lineRow
  simp only
  split
  · rw [ht.render, cut_ascii ht.ascii (by have := ht.len; omega)]; exact ⟨_, rfl⟩
  · exact ⟨_, rfl⟩

theorem add16_ok {a b : Nat} (h : a + b ≤ 65535) : add16 a b = .ok (a + b) := by simp [add16, h]

theorem rowLoop_total {rows : List (Row T)} {content : List Str} (hh : 1 ≤ height)
    (hr : ∀ r ∈ drawnFrom height content.length rows, Drawable p width r)
    (hn : content.length + (drawnFrom height content.length rows).length ≤ 65535) :
    ∃ out, rowLoop p width height rows content = .ok out := by
  induction rows generalizing content with
  | nil => exact ⟨_, rfl⟩
  | cons r rows ih =>
    have step : ∀ s, (content.length ≠ height - 1 ∨ r.isLine = false) →
        content.length + 1 ≤ 65535 ∧ ∃ out, rowLoop p width height rows (content ++ [s]) = .ok out := by
      intro s hne
      rw [drawnFrom_cons _ _ _ hne] at hr hn
      rw [List.length_cons] at hn
      refine ⟨by omega, ih ?_ ?_⟩
      · rw [List.length_append, List.length_singleton]; exact fun r hr' => hr r (List.mem_cons_of_mem _ hr')
      · rw [List.length_append, List.length_singleton]; omega
    cases r with
    | header b x y =>
      have hd := hr (.header b x y) (by rw [drawnFrom_cons _ _ _ (.inr rfl)]; exact List.mem_cons_self ..)
      obtain ⟨s, hs⟩ := (header_iff (T := T) b x y []).2 hd
      obtain ⟨h1, h2⟩ := step s (.inr rfl)
      rw [rowLoop, hs]
      simp only [except_bind_ok]
      rw [add16_ok h1]
      exact h2
    | line t =>
      rw [rowLoop, subChecked_ok hh]
      simp only [except_bind_ok]
      split
      · exact ⟨_, rfl⟩
      · rename_i hne
        obtain ⟨s, hs⟩ := hr (.line t) (by rw [drawnFrom_cons _ _ _ (.inl hne)]; exact List.mem_cons_self ..)
        obtain ⟨h1, h2⟩ := step s (.inl hne)
        rw [hs]
        simp only [except_bind_ok]
        rw [add16_ok h1]
        exact h2

theorem rowLoop_needs {rows : List (Row T)} {content out : List Str} (h : rowLoop p width height rows content = .ok out)
    (hc : content.length ≤ 65535) :
    (∀ r ∈ drawnFrom height content.length rows, Drawable p width r) ∧
    content.length + (drawnFrom height content.length rows).length ≤ 65535 ∧
    (height = 0 → rows.any Row.isLine = false) := by
  induction rows generalizing content with
  | nil =>
    have : drawnFrom height content.length ([] : List (Row T)) = [] := by unfold drawnFrom; split <;> simp
    rw [this]
    exact ⟨fun r hr => (by cases hr), by simpa using hc, fun _ => rfl⟩
  | cons r rows ih =>
    cases r with
    | header b x y =>
      rw [rowLoop] at h
      obtain ⟨s, h1, h⟩ := bind_inv h
      obtain ⟨i, h2, h⟩ := bind_inv h
      have h2' := add16_inv h2
      obtain ⟨i1, i2, i3⟩ := ih h (by rw [List.length_append, List.length_singleton]; omega)
      rw [List.length_append, List.length_singleton] at i1 i2
      rw [drawnFrom_cons _ _ _ (.inr rfl)]
      refine ⟨fun r hr => ?_, by rw [List.length_cons]; omega, fun h0 => by simpa [Row.isLine] using i3 h0⟩
      rcases List.mem_cons.1 hr with rfl | hr
      · exact (header_iff (T := T) b x y []).1 ⟨s, h1⟩
      · exact i1 r hr
    | line t =>
      rw [rowLoop] at h
      obtain ⟨last, h1, h⟩ := bind_inv h
      have hh : 1 ≤ height := by
        unfold subChecked at h1
        split at h1
        · assumption
        · cases h1
      rw [subChecked_ok hh] at h1
      cases h1
      split at h
      · rename_i hl
        rw [drawnFrom_line_stop _ _ _ hl]
        exact ⟨fun r hr => (by cases hr), by simpa using hc, fun h0 => by omega⟩
      · rename_i hl
        obtain ⟨s, h2, h⟩ := bind_inv h
        obtain ⟨i, h3, h⟩ := bind_inv h
        have h3' := add16_inv h3
        obtain ⟨i1, i2, i3⟩ := ih h (by rw [List.length_append, List.length_singleton]; omega)
        rw [List.length_append, List.length_singleton] at i1 i2
        rw [drawnFrom_cons _ _ _ (.inl hl)]
        refine ⟨fun r hr => ?_, by rw [List.length_cons]; omega, fun h0 => by omega⟩
        rcases List.mem_cons.1 hr with rfl | hr
        · exact ⟨s, h2⟩
        · exact i1 r hr

/-- C60: drawing the view crashes exactly when the status line does (see C72), when a header that is to be drawn is
wider than the screen, when a line that is to be cut is cut inside a character, when there are more than 65535 rows, or
when the screen has no row at all. -/
theorem C60_crash (s : ConnectionState T) (hv : (rowsOf s.view).any Row.isLine) :
    (∃ ds, drawView p width height s = .ok ds) ↔
      1 ≤ height ∧ (∀ r ∈ drawn height (rowsOf s.view), Drawable p width r) ∧
      (drawn height (rowsOf s.view)).length ≤ 65535 ∧ ∃ st, drawStatus p width height s = .ok st := by
  have e := itemRows_eq (p := p) (width := width) (height := height) s.view []
  rw [List.length_nil] at e
  unfold drawView
  rw [e]
  constructor
  · rintro ⟨ds, h⟩
    obtain ⟨content, h1, h⟩ := bind_inv h
    obtain ⟨st, h2, h⟩ := bind_inv h
    obtain ⟨i1, i2, i3⟩ := rowLoop_needs h1 (by simp)
    rw [List.length_nil, drawn_eq] at i1 i2
    refine ⟨?_, i1, by simpa using i2, st, h2⟩
    rcases Nat.eq_zero_or_pos height with h0 | h0
    · rw [i3 h0] at hv; cases hv
    · exact h0
  · rintro ⟨hh, h1, h2, st, h3⟩
    obtain ⟨out, ho⟩ := rowLoop_total (p := p) (width := width) (rows := rowsOf s.view) (content := []) hh
      (by rw [List.length_nil, drawn_eq]; exact h1) (by rw [List.length_nil, drawn_eq]; simpa using h2)
    rw [ho, h3]
    exact ⟨_, rfl⟩

/-- C60 is false of the part of a line that is selected: it is drawn with escape sequences, which are counted as
characters when the line is cut, so that a line which is too wide and begins with such a sequence shows fewer characters
than the screen is wide, and loses the sequence that ends it. -/
theorem C60_escape_refuted {t : T} {esc body : Str} (hr : p.render t = esc ++ body) (ha : AsciiStr (esc ++ body))
    (hw : width < p.textLen t) (hl : p.textLen t ≤ body.length) (he : esc.length ≤ width) {s : Str}
    (h : RowShown p width (.line t) s) : s = esc ++ body.take (width - esc.length) := by
  simp only [RowShown] at h
  rw [if_neg (by omega), hr] at h
  obtain ⟨⟨rest, e⟩, hb⟩ := h
  have hs : AsciiStr s := fun c hc => ha c (e ▸ List.mem_append_left _ hc)
  rw [byteLen_ascii hs] at hb
  rw [take_of_append e, hb, List.take_append, List.take_of_length_le he]

/-! ### C72: the status line -/

theorem join_length {sep : Str} (hs : sep.length = 1) (l : List Str) :
    (Str.join sep l).length = (l.map List.length).sum + (l.length - 1) := by
  induction l with
  | nil => rfl
  | cons s l ih =>
    cases l with
    | nil => simp [Str.join]
    | cons s2 l =>
      rw [Str.join, List.length_append, List.length_append, ih, hs]
      · simp only [List.map_cons, List.sum_cons, List.length_cons]; omega
      · simp

theorem join_bytes {sep : Str} (l : List Str) :
    (Str.join sep l).byteLen = (l.map Str.byteLen).sum + (l.length - 1) * sep.byteLen := by
  induction l with
  | nil => simp [Str.join, byteLen_nil]
  | cons s l ih =>
    cases l with
    | nil => simp [Str.join]
    | cons s2 l =>
      rw [Str.join, byteLen_append, byteLen_append, ih]
      · simp only [List.map_cons, List.sum_cons, List.length_cons, Nat.add_sub_cancel]
        rw [Nat.add_mul l.length 1]; omega
      · simp

/-- C72: the status line is drawn exactly when the message is as wide as the screen or more, or when the message and the
status are together narrower than the screen; otherwise the client crashes. -/
theorem C72_crash (s : ConnectionState T) :
    (∃ ds, drawStatus p width height s = .ok ds) ↔
      width ≤ echoLen p s ∨ echoLen p s + (statusShown p s).byteLen < width := by
  unfold drawStatus statusText
  show (∃ ds, ((if echoLen p s ≥ width then _ else
    if echoLen p s + (statusShown p s).byteLen ≥ width then _ else _) >>= _) = _) ↔ _
  split
  · exact ⟨fun _ => .inl (by assumption), fun _ => ⟨_, rfl⟩⟩
  · rename_i h1
    split
    · rename_i h2
      constructor
      · rintro ⟨ds, h⟩
        obtain ⟨x, h3, h⟩ := bind_inv h
        obtain ⟨y, h4, h3⟩ := bind_inv h3
        have h4' : subChecked (echoLen p s) width = .ok y := h4
        rw [subChecked_err (by omega)] at h4'
        cases h4'
      · intro h; omega
    · exact ⟨fun _ => .inr (by omega), fun _ => ⟨_, rfl⟩⟩

/-- C72: what is drawn, reversed, at the row after the last one (which terminals take for the last one): a message that
is too wide is not cut; otherwise there are the message, spaces and the status. -/
theorem C72_drawn {s : ConnectionState T} {ds : List Draw} (h : drawStatus p width height s = .ok ds) :
    ∃ text, ds = [.at 0 height true text] ∧
      (width ≤ echoLen p s → text = p.render (s.echo.getD p.blank)) ∧
      (echoLen p s < width → text = p.render (s.echo.getD p.blank) ++
        List.replicate (width - echoLen p s - (statusShown p s).byteLen) ' ' ++ statusShown p s ∧
        echoLen p s + (statusShown p s).byteLen < width) := by
  unfold drawStatus at h
  obtain ⟨text, h1, h⟩ := bind_inv h
  cases h
  refine ⟨text, rfl, fun hw => ?_, fun hw => ?_⟩
  · unfold statusText at h1
    rw [if_pos (show p.textLen (s.echo.getD p.blank) ≥ width from hw)] at h1
    cases h1; rfl
  · have := (C72_crash (p := p) (width := width) (height := 0) s).1 ⟨[.at 0 0 true text], by unfold drawStatus; rw [h1]; rfl⟩
    have h2 : echoLen p s + (statusShown p s).byteLen < width := by omega
    refine ⟨?_, h2⟩
    unfold statusText at h1
    rw [if_neg (show ¬ p.textLen (s.echo.getD p.blank) ≥ width from by unfold echoLen at hw; omega),
      if_neg (show ¬ p.textLen (s.echo.getD p.blank) + (Str.join ['·'] (s.status.map fun i => p.plain i.2)).byteLen ≥ width from by
        unfold echoLen statusShown at h2; omega)] at h1
    cases h1; rfl

/-- C72: for ASCII texts without decoration the line is narrower than the screen by one column for each dot between the
items of the status (a dot takes two bytes and one column), so that it never passes the edge. -/
theorem C72_width {s : ConnectionState T} {ds : List Draw} (h : drawStatus p width height s = .ok ds)
    (he : PlainText p (s.echo.getD p.blank)) (hs : ∀ i ∈ s.status, PlainText p i.2) (hw : echoLen p s < width) :
    ∃ text, ds = [.at 0 height true text] ∧ text.length + (s.status.length - 1) = width := by
  obtain ⟨text, e, _, h2⟩ := C72_drawn h
  obtain ⟨e2, h3⟩ := h2 hw
  refine ⟨text, e, ?_⟩
  have hl : (statusShown p s).byteLen = (statusShown p s).length + (s.status.length - 1) := by
    unfold statusShown
    rw [join_bytes, join_length (sep := ['·']) rfl, List.length_map]
    have : (s.status.map fun i => p.plain i.2).map Str.byteLen = (s.status.map fun i => p.plain i.2).map List.length := by
      rw [List.map_map, List.map_map]
      apply List.map_congr_left
      intro i hi
      exact byteLen_ascii (hs i hi).ascii
    rw [this]
    have e1 : Str.byteLen ['·'] = 2 := by decide
    rw [e1]; omega
  have hr : (p.render (s.echo.getD p.blank)).length = echoLen p s := by
    unfold echoLen; rw [he.len, he.render]
  rw [e2, List.length_append, List.length_append, List.length_replicate, hr]
  omega

/-! ### C74: the menu -/

/-- How an entry appears: whole, or cut to the width of the screen. -/
def EntryShown (p : Paint T) (width : Nat) (e : RemoteEntry T) (s : Str) : Prop :=
  if (p.renderMenu e.text).byteLen ≤ width then s = p.renderMenu e.text
  else (∃ rest, p.renderMenu e.text = s ++ rest) ∧ s.byteLen = width

/-- An entry that can be drawn: it fits or can be cut. -/
def EntryDrawable (p : Paint T) (width : Nat) (e : RemoteEntry T) : Prop :=
  width < (p.renderMenu e.text).byteLen → ∃ s, (p.renderMenu e.text).cut width = .ok s

/-- The rows of the entries from the number `i` on; the one number `selected` is reversed. -/
def entryDraws (selected i : Nat) (rows : List Str) : List Draw :=
  (rows.zipIdx i).flatMap fun x => [.at 0 (x.2 + 1) (decide (x.2 = selected)) x.1, .clearRest]

theorem entryRows_ok {size selected i : Nat} (hs : size ≤ 65534) (hi : i ≤ size) {es : List (RemoteEntry T)} {ds : List Draw}
    (h : entryRows p width size selected es i = .ok ds) :
    ∃ rows, ds = entryDraws selected i rows ∧ List.Forall₂ (EntryShown p width) (es.take (size - i)) rows := by
  induction es generalizing i ds with
  | nil => cases h; exact ⟨[], rfl, by rw [List.take_nil]; exact .nil⟩
  | cons e es ih =>
    rw [entryRows] at h
    split at h
    · rename_i hx
      cases h
      exact ⟨[], rfl, by rw [hx, Nat.sub_self, List.take_zero]; exact .nil⟩
    · rename_i hx
      obtain ⟨v, h1, h⟩ := bind_inv h
      obtain ⟨y, h2, h⟩ := bind_inv h
      obtain ⟨ds1, h3, h⟩ := bind_inv h
      cases h
      obtain ⟨rows, e1, hf⟩ := ih (by omega) h3
      refine ⟨v :: rows, ?_, ?_⟩
      · have hy := (add16_inv h2).1
        have : u16 i = i := Nat.mod_eq_of_lt (by omega)
        rw [this] at hy
        rw [e1, hy, Nat.add_comm 1 i]; rfl
      · rw [show size - i = (size - (i + 1)) + 1 by omega, List.take_succ_cons]
        refine .cons ?_ hf
        unfold EntryShown
        unfold entryView at h1
        dsimp only at h1
        split at h1
        · rw [if_neg (by omega)]; exact cut_ok h1
        · cases h1; rw [if_pos (by omega)]

/-- C74: when a menu is drawn, its title and what was typed fill the first row; below, one row each, come the first
entries, as many as the screen has rows below the title; the highlighted one, if it is among them, is reversed. -/
theorem C74_drawn {m : RemoteMenu T} {ds : List Draw} (hh : height ≤ 65535) (h : drawMenu p width height m = .ok ds) :
    ∃ top rows, ds = [.clear, .at 0 0 true top] ++ entryDraws m.selected 0 rows ∧
      (∃ n, top = m.title ++ str!":" ++ m.search ++ List.replicate n ' ') ∧ top.byteLen = width ∧
      List.Forall₂ (EntryShown p width) (m.entries.take (height - 1)) rows := by
  unfold drawMenu at h
  obtain ⟨pad, h1, h⟩ := bind_inv h
  obtain ⟨size, h2, h⟩ := bind_inv h
  obtain ⟨ds1, h3, h⟩ := bind_inv h
  cases h
  unfold subChecked at h1 h2
  split at h1 <;> cases h1
  split at h2 <;> cases h2
  obtain ⟨rows, e, hf⟩ := entryRows_ok (by omega) (by omega) h3
  refine ⟨m.title ++ [':'] ++ m.search ++ Str.rep ' ' (width - (m.title ++ [':'] ++ m.search).byteLen), rows, by rw [e],
    ⟨_, rfl⟩, ?_, hf⟩
  rw [byteLen_append, byteLen_rep (by decide)]
  omega

/-- C74: an entry of plain ASCII text appears as its first characters, as many as the screen is wide. -/
theorem C74_entry {e : RemoteEntry T} (ht : PlainText p e.text) {s : Str} (h : EntryShown p width e s) :
    s = (p.plain e.text).take width := by
  unfold EntryShown at h
  rw [ht.renderMenu, byteLen_ascii ht.ascii] at h
  split at h
  · rw [h, List.take_of_length_le (by assumption)]
  · obtain ⟨⟨rest, e1⟩, hl⟩ := h
    rw [byteLen_ascii fun c hc => ht.ascii c (e1 ▸ List.mem_append_left _ hc)] at hl
    rw [← hl]; exact take_of_append e1

theorem entryRows_iff {size selected i : Nat} (hs : size ≤ 65534) (hi : i ≤ size) (es : List (RemoteEntry T)) :
    (∃ ds, entryRows p width size selected es i = .ok ds) ↔ ∀ e ∈ es.take (size - i), EntryDrawable p width e := by
  induction es generalizing i with
  | nil => simp [entryRows]
  | cons e es ih =>
    rw [entryRows]
    split
    · rename_i hx
      rw [hx, Nat.sub_self, List.take_zero]
      exact ⟨fun _ e he => (by cases he), fun _ => ⟨_, rfl⟩⟩
    · rw [show size - i = (size - (i + 1)) + 1 by omega, List.take_succ_cons]
      have ih := ih (i := i + 1) (by omega)
      have hu : u16 i = i := Nat.mod_eq_of_lt (by omega)
      have ha : add16 1 (u16 i) = .ok (1 + i) := by rw [hu]; exact add16_ok (by omega)
      rw [ha]
      constructor
      · rintro ⟨ds, h⟩
        obtain ⟨v, h1, h⟩ := bind_inv h
        obtain ⟨y, h2, h⟩ := bind_inv h
        obtain ⟨ds1, h3, h⟩ := bind_inv h
        intro e' he'
        rcases List.mem_cons.1 he' with rfl | he'
        · intro hw
          unfold entryView at h1
          dsimp only at h1
          rw [if_pos hw] at h1
          exact ⟨v, h1⟩
        · exact ih.1 ⟨ds1, h3⟩ e' he'
      · intro h
        obtain ⟨ds1, h3⟩ := ih.2 fun e' he' => h e' (List.mem_cons_of_mem _ he')
        rw [h3]
        have hd := h e (List.mem_cons_self ..)
        unfold entryView
        dsimp only
        split
        · rename_i hw
          obtain ⟨s, hs⟩ := hd hw
          rw [hs]; exact ⟨_, rfl⟩
        · exact ⟨_, rfl⟩

/-- C74: drawing a menu crashes exactly when its title with what was typed is wider than the screen, when the screen has
no row, or when an entry that is to be cut is cut inside a character. -/
theorem C74_crash (m : RemoteMenu T) (hh : height ≤ 65535) :
    (∃ ds, drawMenu p width height m = .ok ds) ↔
      (m.title ++ str!":" ++ m.search).byteLen ≤ width ∧ 1 ≤ height ∧
      ∀ e ∈ m.entries.take (height - 1), EntryDrawable p width e := by
  unfold drawMenu
  constructor
  · rintro ⟨ds, h⟩
    obtain ⟨pad, h1, h⟩ := bind_inv h
    obtain ⟨size, h2, h⟩ := bind_inv h
    obtain ⟨ds1, h3, h⟩ := bind_inv h
    unfold subChecked at h1 h2
    split at h1 <;> cases h1
    split at h2 <;> cases h2
    exact ⟨by assumption, by assumption, (entryRows_iff (size := height - 1) (i := 0) (by omega) (by omega) _).1 ⟨ds1, h3⟩⟩
  · rintro ⟨h1, h2, h3⟩
    obtain ⟨ds1, h4⟩ := (entryRows_iff (selected := m.selected) (size := height - 1) (i := 0) (by omega) (by omega) m.entries).2 h3
    simp only
    rw [subChecked_ok h1, subChecked_ok h2]
    simp only [except_bind_ok]
    rw [h4]
    exact ⟨_, rfl⟩

theorem entryDraws_reversed {selected i y : Nat} {rows : List Str} {s : Str}
    (h : Draw.at 0 y true s ∈ entryDraws selected i rows) : y = selected + 1 ∧ i ≤ selected ∧ selected < i + rows.length := by
  unfold entryDraws at h
  obtain ⟨⟨r, k⟩, hk, hm⟩ := List.mem_flatMap.1 h
  simp only [List.mem_cons, List.not_mem_nil, or_false, Draw.at.injEq, reduceCtorEq] at hm
  have hb := List.mem_zipIdx hk
  have e : k = selected := of_decide_eq_true hm.2.2.1.symm
  omega

/-- C74 does not say that the highlighted entry is seen: there is no scrolling, and when it is not among the first
entries no row but the title is reversed. -/
theorem C74_hidden_refuted {m : RemoteMenu T} {ds : List Draw} (hh : height ≤ 65535) (h : drawMenu p width height m = .ok ds)
    (hs : height - 1 ≤ m.selected) : ∀ x y s, Draw.at x y true s ∈ ds → y = 0 := by
  obtain ⟨top, rows, e, _, _, hf⟩ := C74_drawn hh h
  intro x y s hm
  rw [e] at hm
  simp only [List.cons_append, List.nil_append, List.mem_cons, reduceCtorEq, false_or, Draw.at.injEq] at hm
  rcases hm with hm | hm
  · exact hm.2.1
  · have hx : x = 0 := by
      unfold entryDraws at hm
      obtain ⟨⟨r, k⟩, hk, hm⟩ := List.mem_flatMap.1 hm
      simp only [List.mem_cons, List.not_mem_nil, or_false, Draw.at.injEq, reduceCtorEq] at hm
      exact hm.1
    subst hx
    have := entryDraws_reversed hm
    have hl := forall2_length hf
    rw [List.length_take] at hl
    omega

/-! ### C75: the hint -/

theorem hintRows_ok {x y : Nat} (hh : height ≤ 65535) {lines : List T} (hy : y + lines.length = height) :
    hintRows p height x lines y = .ok ((lines.zipIdx y).map fun l => .at x l.2 true (p.render l.1)) := by
  induction lines generalizing y with
  | nil => rfl
  | cons l lines ih =>
    rw [List.length_cons] at hy
    rw [hintRows]
    rw [add16_ok (by omega)]
    simp only [except_bind_ok]
    split
    · rename_i e
      have : lines = [] := List.length_eq_zero_iff.1 (by omega)
      subst this; rfl
    · rw [ih (by omega)]; rfl

/-- C75: a hint that has at least a line, and whose first line and number of lines are not larger than the screen, is
drawn whole in the lower right corner: its last line on the last row, and its first line up to the last column. -/
theorem C75_drawn {hint : List T} {first : T} {rest : List T} (hl : hint = first :: rest) (hh : height ≤ 65535)
    (hw : width ≤ 65535) (hx : (p.plain first).length ≤ width) (hy : hint.length ≤ height) :
    drawHint p width height hint = .ok ((hint.zipIdx (height - hint.length)).map fun l =>
      .at (width - (p.plain first).length) l.2 true (p.render l.1)) := by
  unfold drawHint
  have h0 : indexR hint 0 = .ok first := by rw [hl]; rfl
  have u1 : u16 (p.plain first).length = (p.plain first).length := Nat.mod_eq_of_lt (by omega)
  have u2 : u16 hint.length = hint.length := Nat.mod_eq_of_lt (by omega)
  rw [h0]
  simp only [except_bind_ok]
  rw [u1, u2, subChecked_ok hx]
  simp only [except_bind_ok]
  rw [subChecked_ok hy]
  simp only [except_bind_ok]
  exact hintRows_ok hh (by omega)

/-- C75: a hint without lines, one with a first line wider than the screen and one with more lines than the screen has rows
crash the client. -/
theorem C75_crash {hint : List T} (hn : hint.length ≤ 65535) (hf : ∀ t ∈ hint.head?, (p.plain t).length ≤ 65535)
    (h : hint = [] ∨ (∃ t, hint.head? = some t ∧ width < (p.plain t).length) ∨ height < hint.length) :
    ∃ e, drawHint p width height hint = .error e := by
  unfold drawHint
  cases hint with
  | nil => exact ⟨_, rfl⟩
  | cons t l =>
    have u1 : u16 (p.plain t).length = (p.plain t).length := Nat.mod_eq_of_lt (by have := hf t rfl; omega)
    have u2 : u16 (t :: l).length = (t :: l).length := Nat.mod_eq_of_lt (by omega)
    show ∃ e, (subChecked width (u16 (p.plain t).length) >>= fun x => subChecked height (u16 (t :: l).length) >>= fun y =>
      hintRows p height x (t :: l) y) = .error e
    rw [u1, u2]
    rcases h with h | ⟨t', e, h⟩ | h
    · cases h
    · cases e; rw [subChecked_err h]; exact ⟨_, rfl⟩
    · unfold subChecked
      split
      · simp only [except_bind_ok]
        rw [if_neg (by omega)]; exact ⟨_, rfl⟩
      · exact ⟨_, rfl⟩

/-- the rows from a row of the screen on -/
theorem hintRows_rows {x y : Nat} (hh : height ≤ 65535) {lines : List T} (hy : y < height) :
    hintRows p height x lines y = .ok (((lines.take (height - y)).zipIdx y).map fun l => .at x l.2 true (p.render l.1)) := by
  induction lines generalizing y with
  | nil => simp [hintRows]
  | cons l lines ih =>
    rw [hintRows, add16_ok (by omega)]
    simp only [except_bind_ok]
    obtain ⟨k, hk⟩ : ∃ k, height - y = k + 1 := ⟨height - y - 1, by omega⟩
    rw [hk, List.take_succ_cons]
    split
    · rename_i e
      have : k = 0 := by omega
      subst this
      rfl
    · rw [ih (by omega), show height - (y + 1) = k by omega]
      rfl

/-- below the screen, the rows are counted until the count overflows -/
theorem hintRows_below {x y : Nat} {lines : List T} (hy : height ≤ y) (hn : 65535 < y + lines.length) (h16 : y ≤ 65535) :
    ∃ e, hintRows p height x lines y = .error e := by
  induction lines generalizing y with
  | nil => rw [List.length_nil] at hn; omega
  | cons l lines ih =>
    rw [List.length_cons] at hn
    rw [hintRows]
    by_cases h : 1 + y ≤ 65535
    · rw [add16_ok (by omega)]
      simp only [except_bind_ok]
      rw [if_neg (by omega)]
      obtain ⟨e, he⟩ := ih (y := y + 1) (by omega) (by omega) (by omega)
      rw [he]
      exact ⟨e, rfl⟩
    · have : add16 y 1 = .error .overflow := if_neg (by omega)
      rw [this]
      exact ⟨_, rfl⟩

/-- C75, for every hint: it is drawn exactly when it has a first line, its number of lines is not a multiple of 65536 and
neither this number nor the length of the first line, both counted modulo 65536, is larger than the screen; then as many
lines as counted are drawn. -/
theorem C75_exact (hint : List T) (hh : height ≤ 65535) :
    (∀ ds, drawHint p width height hint = .ok ds → ∃ first rest, hint = first :: rest ∧
      ds = ((hint.take (hint.length % 65536)).zipIdx (height - hint.length % 65536)).map fun l =>
        .at (width - (p.plain first).length % 65536) l.2 true (p.render l.1)) ∧
    ((∃ ds, drawHint p width height hint = .ok ds) ↔ ∃ first rest, hint = first :: rest ∧
      (p.plain first).length % 65536 ≤ width ∧ 0 < hint.length % 65536 ∧ hint.length % 65536 ≤ height) := by
  cases hint with
  | nil =>
    constructor
    · intro ds h; cases h
    · constructor
      · rintro ⟨ds, h⟩; cases h
      · rintro ⟨f, r, h, _⟩; cases h
  | cons first rest =>
    have hd : drawHint p width height (first :: rest) = (subChecked width ((p.plain first).length % 65536) >>= fun x =>
      subChecked height ((first :: rest).length % 65536) >>= fun y => hintRows p height x (first :: rest) y) := rfl
    rw [hd]
    generalize hx : (p.plain first).length % 65536 = a
    generalize hl : first :: rest = hint
    generalize hr : hint.length % 65536 = n
    have hne : 0 < hint.length := by rw [← hl]; simp
    by_cases h1 : a ≤ width
    · rw [subChecked_ok h1]
      simp only [except_bind_ok]
      by_cases h2 : n ≤ height
      · rw [subChecked_ok h2]
        simp only [except_bind_ok]
        by_cases h3 : 0 < n
        · have hrows := hintRows_rows (p := p) (x := width - a) hh (lines := hint) (y := height - n) (by omega)
          rw [show height - (height - n) = n by omega] at hrows
          rw [hrows]
          refine ⟨?_, fun _ => ⟨first, rest, hl.symm, by rw [hx]; exact h1, h3, h2⟩, fun _ => ⟨_, rfl⟩⟩
          intro ds h
          cases h
          exact ⟨first, rest, hl.symm, by rw [hx]⟩
        · obtain ⟨e, he⟩ := hintRows_below (p := p) (x := width - a) (lines := hint) (y := height - n) (height := height)
            (by omega) (by omega) (by omega)
          rw [he]
          refine ⟨fun ds h => (by cases h), fun ⟨ds, h⟩ => (by cases h), fun ⟨_, _, _, _, h4, _⟩ => absurd h4 h3⟩
      · rw [subChecked_err (by omega)]
        refine ⟨fun ds h => (by cases h), fun ⟨ds, h⟩ => (by cases h), fun ⟨_, _, _, _, _, h4⟩ => absurd h4 h2⟩
    · rw [subChecked_err (by omega)]
      refine ⟨fun ds h => (by cases h), fun ⟨ds, h⟩ => (by cases h), ?_⟩
      rintro ⟨f, r, e, h4, _⟩
      rw [← hl] at e
      cases e
      rw [hx] at h4
      exact absurd h4 h1

/-- C75: a rectangular hint that fits is inside the screen. -/
theorem C75_inside {hint : List T} (hne : hint ≠ []) {w : Nat} (hr : ∀ t ∈ hint, (p.plain t).length = w) (hh : height ≤ 65535)
    (hw : width ≤ 65535) (hx : w ≤ width) (hy : hint.length ≤ height) :
    ∃ ds, drawHint p width height hint = .ok ds ∧ ds.length = hint.length ∧
      ∀ d ∈ ds, ∃ x y t, d = .at x y true (p.render t) ∧ t ∈ hint ∧ x + (p.plain t).length = width ∧ y < height := by
  cases hint with
  | nil => exact absurd rfl hne
  | cons first rest =>
    have hf := hr first (List.mem_cons_self ..)
    refine ⟨_, C75_drawn rfl hh hw (by omega) hy, by simp, ?_⟩
    intro d hd
    obtain ⟨⟨t, k⟩, hk, rfl⟩ := List.mem_map.1 hd
    have hb := List.mem_zipIdx hk
    have ht : t ∈ first :: rest := hb.2.2 ▸ List.getElem_mem _
    refine ⟨_, _, t, rfl, ht, ?_, by omega⟩
    have := hr t ht
    omega

/-- C75: the hint of the two keys that follow `g` needs 17 columns and 4 rows; with less, pressing that key crashes the
client. -/
theorem C75_goto {o : Ornament T} (hp : ∀ s, p.plain (o.faced s .default) = s) {eng : LuaEngine}
    (he : PairsEnumerates eng) {m : KeyMode} {title : Str}
    (hm : (m = .moveTo ∧ title = str!"move to") ∨ (m = .extendTo ∧ title = str!"extend to")) (hh : height ≤ 65535)
    (hw : width ≤ 65535) :
    ∃ lines, hintOf eng m = [.hint lines] ∧
      ((∃ ds, drawHint p width height (lines.map fun l => o.faced l .default) = .ok ds) ↔ 17 ≤ width ∧ 4 ≤ height) := by
  obtain ⟨top, a, b, bottom, e, hr, _⟩ := C66_goto he hm
  refine ⟨_, e, ?_⟩
  have hlen : ∀ l ∈ [top, a, b, bottom].map (fun l => o.faced l .default), (p.plain l).length = 17 := by
    intro l hl
    obtain ⟨x, hx, rfl⟩ := List.mem_map.1 hl
    rw [hp]; exact hr x hx
  constructor
  · rintro ⟨ds, h⟩
    refine Decidable.byContradiction fun hn => ?_
    have : ∃ e, drawHint p width height ([top, a, b, bottom].map fun l => o.faced l .default) = .error e := by
      apply C75_crash
      · simp
      · intro t ht
        have := hlen t (List.mem_of_mem_head? ht)
        omega
      · have h17 := hlen _ (List.mem_cons_self ..)
        by_cases hx : width < 17
        · exact .inr (.inl ⟨_, rfl, by omega⟩)
        · exact .inr (.inr (by simp; omega))
    obtain ⟨e, h'⟩ := this
    rw [h] at h'; cases h'
  · rintro ⟨h1, h2⟩
    obtain ⟨ds, h, _⟩ := C75_inside (p := p) (height := height) (width := width)
      (hint := [top, a, b, bottom].map fun l => o.faced l .default) (by simp) hlen hh hw h1 (by simpa using h2)
    exact ⟨ds, h⟩

/-! ### C73: the keys -/

/-- The requests of a connection are these calls, numbered from 0. -/
def Numbered (c : Connection T) (calls : List Call) : Prop :=
  c.sent = (calls.zipIdx).map (fun x => Call.request (.number x.2) x.1) ∧ c.nextRequestId = calls.length

theorem numbered_call {c c' : Connection T} {calls : List Call} {x : Call} (h : Numbered c calls) (hc : c.call x = .ok c') :
    Numbered c' (calls ++ [x]) ∧ c'.state = c.state := by
  obtain ⟨h1, h2⟩ := h
  simp only [Connection.call, Connection.requestId] at hc
  split at hc
  · cases hc
    refine ⟨⟨?_, ?_⟩, rfl⟩
    · simp only [Connection.request]
      rw [h1, List.zipIdx_append, List.map_append, h2]
      simp
    · simp only [Connection.request]
      rw [h2]; simp
  · cases hc

theorem term_call {t t' : Term T} {x : Call} {ds : List Draw} (h : t.call x = .ok (t', ds)) :
    ∃ c, t.connection.call x = .ok c ∧ t' = { t with connection := c } ∧ ds = [] := by
  unfold Term.call at h
  obtain ⟨c, h1, h⟩ := bind_inv h
  cases h
  exact ⟨c, h1, rfl, rfl⟩

theorem zero_selected {m : RemoteMenu T} (h : m.selected = 0) : m = { m with selected := m.selected - 1 } := by
  obtain ⟨a, b, c, d, e⟩ := m
  simp_all

/-- The calls made for a key while a menu is open. -/
def menuCalls (m : RemoteMenu T) (k : Key) (selected : Option Str) : List Call :=
  match k with
  | .char c => [.menu m.command (m.search ++ [c])]
  | .backspace => [.menu m.command m.search.dropLast]
  | .enter => (selected.map fun v => Call.menuSelect m.command (if v = [] then m.search else v)).toList
  | _ => []

/-- C73: while a menu is open no key reaches the editor, whatever its modifiers: a character asks for the menu with one
more character, backspace with one less, enter chooses the highlighted entry, and the other keys send nothing; escape
and enter close the menu, up and down move the highlighted entry. -/
theorem C73_menu {t t' : Term T} {m : RemoteMenu T} {ds : List Draw} {k : Pressed} {ev : KeyEvent}
    (hm : t.connection.state.menu = some m) (hk : k.event = some ev) {calls : List Call} (hn : Numbered t.connection calls)
    (h : t.handleInput p k = .ok (t', ds)) :
    Numbered t'.connection (calls ++ menuCalls m ev.key ((m.entries[m.selected]?).map (·.value))) ∧
    t'.exitPending = t.exitPending ∧
    (ev.key = .escape ∨ ev.key = .enter → t'.connection.state.menu = none) ∧
    (ev.key = .up → t'.connection.state.menu = some { m with selected := m.selected - 1 }) ∧
    (ev.key = .down → t'.connection.state.menu =
      some { m with selected := if m.selected + 1 < m.entries.length then m.selected + 1 else m.selected }) ∧
    (∀ c, ev.key = .char c → t'.connection.state.menu = some m) ∧
    (ev.key = .backspace ∨ ev.key = .left ∨ ev.key = .right → t'.connection.state.menu = some m) := by
  unfold Term.handleInput at h
  rw [hk] at h
  simp only [hm] at h
  unfold Term.menuKey at h
  cases hkey : ev.key with
  | char c =>
    simp only [hkey] at h
    obtain ⟨c1, h1, rfl, _⟩ := term_call h
    obtain ⟨h2, h3⟩ := numbered_call hn h1
    refine ⟨h2, rfl, ?_, ?_, ?_, ?_, ?_⟩ <;> simp [h3, hm]
  | backspace =>
    simp only [hkey] at h
    obtain ⟨c1, h1, rfl, _⟩ := term_call h
    obtain ⟨h2, h3⟩ := numbered_call hn h1
    refine ⟨h2, rfl, ?_, ?_, ?_, ?_, ?_⟩ <;> simp [h3, hm]
  | escape =>
    simp only [hkey] at h
    unfold Term.view at h
    obtain ⟨d, h1, h⟩ := bind_inv h
    cases h
    refine ⟨by simpa [menuCalls, Numbered, Connection.menuCancel] using hn, rfl, ?_, ?_, ?_, ?_, ?_⟩ <;>
      simp [Connection.menuCancel]
  | enter =>
    simp only [hkey] at h
    obtain ⟨c1, h1, h⟩ := bind_inv h
    unfold Term.view at h
    obtain ⟨d, h2, h⟩ := bind_inv h
    cases h
    unfold Connection.menuSelect at h1
    rw [hm] at h1
    obtain ⟨v, h3, h1⟩ := bind_inv h1
    obtain ⟨c2, h4, h1⟩ := bind_inv h1
    cases h1
    obtain ⟨h5, h6⟩ := numbered_call hn h4
    unfold RemoteMenu.selectedItem at h3
    split at h3
    · rename_i e he
      cases h3
      refine ⟨?_, rfl, ?_, ?_, ?_, ?_, ?_⟩
      · rw [he]
        simpa [menuCalls, Numbered, Connection.menuCancel, List.isEmpty_iff] using h5
      all_goals simp [Connection.menuCancel]
    · cases h3
  | up =>
    simp only [hkey] at h
    unfold Term.menu at h
    obtain ⟨d, h1, h⟩ := bind_inv h
    obtain ⟨d2, h2, h⟩ := bind_inv h
    cases h
    refine ⟨by simpa [menuCalls, Numbered, Connection.menuPrevious] using hn, rfl, ?_, ?_, ?_, ?_, ?_⟩ <;>
      simp [Connection.menuPrevious, hm, RemoteMenu.selectPrevious]
    intro h0
    exact zero_selected h0
  | down =>
    simp only [hkey] at h
    obtain ⟨c1, h1, h⟩ := bind_inv h
    unfold Term.menu at h
    obtain ⟨d, h2, h⟩ := bind_inv h
    obtain ⟨d2, h3, h⟩ := bind_inv h
    cases h
    by_cases he : m.entries = []
    · rw [(C52_empty_refuted hm he).2] at h1; cases h1
    · rw [(C52_moves hm he).1] at h1
      cases h1
      refine ⟨by simpa [menuCalls, Numbered] using hn, rfl, ?_, ?_, ?_, ?_, ?_⟩ <;> simp
  | left =>
    simp only [hkey] at h
    cases h
    refine ⟨by simpa [menuCalls] using hn, rfl, ?_, ?_, ?_, ?_, ?_⟩ <;> simp [hm]
  | right =>
    simp only [hkey] at h
    cases h
    refine ⟨by simpa [menuCalls] using hn, rfl, ?_, ?_, ?_, ?_, ?_⟩ <;> simp [hm]

/-- The calls made for a key while no menu is open: the bindings of the terminal, then the keys that are sent. -/
def boundCalls (k : KeyEvent) : List Call :=
  match k.key with
  | .char c =>
    if c = 'q' ∧ k.alt then []
    else if k.ctrl ∧ c = 'd' then [.exec str!"editor:debug('coucou')"]
    else if k.ctrl ∧ c = 'e' then [.exec str!"editor:debug(undefined)"]
    else if k.ctrl ∧ c = 'f' then [.menu str!"open" []]
    else if k.ctrl ∧ c = 'p' then [.menu [] []]
    else if k.ctrl ∧ c = 'v' then [.menu str!"view_select" []]
    else [.keys [k]]
  | .escape => [.keys [k]]
  | _ => []

/-- C73: while no menu is open, a character or escape is sent to the editor as it is, except for the bindings of the
terminal; the other keys (enter, backspace, arrows) are never sent; alt-q leaves, ctrl-x crashes. -/
theorem C73_plain {t t' : Term T} {ds : List Draw} {k : Pressed} {ev : KeyEvent}
    (hm : t.connection.state.menu = none) (hk : k.event = some ev) {calls : List Call} (hn : Numbered t.connection calls)
    (h : t.handleInput p k = .ok (t', ds)) :
    Numbered t'.connection (calls ++ boundCalls ev) ∧ t'.connection.state = t.connection.state ∧ ds = [] ∧
    t'.exitPending = (t.exitPending || (decide (ev.key = .char 'q') && ev.alt)) ∧
    ¬ (ev.key = .char 'x' ∧ ev.ctrl = true) := by
  unfold Term.handleInput at h
  rw [hk] at h
  simp only [hm] at h
  unfold Term.plainKey at h
  have send : ∀ {x : Call}, boundCalls ev = [x] → ¬ (ev.key = .char 'q' ∧ ev.alt = true) → ¬ (ev.key = .char 'x' ∧ ev.ctrl = true) →
      t.call x = .ok (t', ds) → Numbered t'.connection (calls ++ boundCalls ev) ∧ t'.connection.state = t.connection.state ∧ ds = [] ∧
      t'.exitPending = (t.exitPending || (decide (ev.key = .char 'q') && ev.alt)) ∧ ¬ (ev.key = .char 'x' ∧ ev.ctrl = true) := by
    intro x hx hq hnx hc
    obtain ⟨c1, h1, rfl, hd⟩ := term_call hc
    obtain ⟨h2, h3⟩ := numbered_call hn h1
    refine ⟨hx ▸ h2, h3, hd, ?_, hnx⟩
    have : (decide (ev.key = .char 'q') && ev.alt) = false := by
      cases hb : (decide (ev.key = .char 'q') && ev.alt) with
      | false => rfl
      | true => simp at hb; exact absurd hb hq
    rw [this, Bool.or_false]
  rcases ite_inv h with ⟨hc, h⟩ | ⟨hc, h⟩
  · cases h
    refine ⟨?_, rfl, rfl, by simp [hc.1, hc.2], by simp [hc.1]⟩
    have : boundCalls ev = [] := by unfold boundCalls; rw [hc.1]; simp [hc.2]
    rw [this, List.append_nil]; exact hn
  rcases ite_inv h with ⟨h1, h⟩ | ⟨h1, h⟩
  · exact send (by unfold boundCalls; simp [h1.1, h1.2]) hc (by simp [h1.1]) h
  rcases ite_inv h with ⟨h2, h⟩ | ⟨h2, h⟩
  · exact send (by unfold boundCalls; simp [h2.1, h2.2]) hc (by simp [h2.1]) h
  rcases ite_inv h with ⟨h3, h⟩ | ⟨h3, h⟩
  · exact send (by unfold boundCalls; simp [h3.1, h3.2]) hc (by simp [h3.1]) h
  rcases ite_inv h with ⟨h4, h⟩ | ⟨h4, h⟩
  · exact send (by unfold boundCalls; simp [h4.1, h4.2]) hc (by simp [h4.1]) h
  rcases ite_inv h with ⟨h5, h⟩ | ⟨h5, h⟩
  · exact send (by unfold boundCalls; simp [h5.1, h5.2]) hc (by simp [h5.1]) h
  rcases ite_inv h with ⟨h6, h⟩ | ⟨h6, h⟩
  · cases h
  cases hkey : ev.key with
  | char c =>
    simp only [hkey] at h
    have e : boundCalls ev = [.keys [ev]] := by
      unfold boundCalls
      rw [hkey]
      rw [hkey, Key.char.injEq] at hc h1 h2 h3 h4 h5
      dsimp only
      rw [if_neg hc, if_neg fun x => h1 ⟨x.2, x.1⟩, if_neg fun x => h2 ⟨x.2, x.1⟩, if_neg fun x => h3 ⟨x.2, x.1⟩,
        if_neg fun x => h4 ⟨x.2, x.1⟩, if_neg fun x => h5 ⟨x.2, x.1⟩]
    have := send e hc h6 h
    rw [hkey] at this
    exact this
  | escape =>
    simp only [hkey] at h
    have := send (by unfold boundCalls; rw [hkey]) hc h6 h
    rw [hkey] at this
    exact this
  | _ =>
    simp only [hkey] at h
    cases h
    have e : boundCalls ev = [] := by unfold boundCalls; rw [hkey]
    rw [e, List.append_nil]
    exact ⟨hn, rfl, rfl, by simp, by simp⟩

/-! ### The running program -/

variable {o : Ornament T} {parse : Str → Option Json} {errText : Str → Str}

/-- C73: the keys of the terminal that the client knows (the others are ignored, whatever the state), with their names. -/
def SameKey : Code → Key → Prop
  | .char c, k => k = .char c
  | .backspace, k => k = .backspace
  | .enter, k => k = .enter
  | .esc, k => k = .escape
  | .up, k => k = .up
  | .down, k => k = .down
  | .left, k => k = .left
  | .right, k => k = .right
  | .other, _ => False

/-- C73: a key keeps its three modifiers and its name; a key that the client does not know does nothing. -/
theorem C73_modifiers (k : Pressed) :
    (∀ ev, k.event = some ev ↔ SameKey k.code ev.key ∧ ev.ctrl = k.ctrl ∧ ev.alt = k.alt ∧ ev.shift = k.shift) ∧
    (k.code = .other → ∀ t : Term T, t.handleInput p k = .ok (t, [])) := by
  obtain ⟨code, ctrl, alt, shift⟩ := k
  constructor
  · rintro ⟨c', a', s', key⟩
    cases code <;> simp only [Pressed.event, toKey, SameKey, Option.map_some, Option.map_none, Option.some.injEq, KeyEvent.mk.injEq, reduceCtorEq, false_and] <;>
      (constructor <;> (intro h; simp_all))
  · rintro rfl t
    rfl

/-- C73: the calls made for a character typed while no menu is open, with the modifiers of the keyboard. -/
theorem C73_character {t t' : Term T} {ds : List Draw} {c : Char} {ctrl alt shift : Bool}
    (hm : t.connection.state.menu = none) {calls : List Call} (hn : Numbered t.connection calls)
    (h : t.handleInput p ⟨.char c, ctrl, alt, shift⟩ = .ok (t', ds)) :
    (ctrl = false → alt = false → Numbered t'.connection (calls ++ [.keys [{ ctrl := false, alt := false, shift := shift, key := .char c }]])) ∧
    (c ∉ ['q', 'd', 'e', 'f', 'p', 'v', 'x'] →
      Numbered t'.connection (calls ++ [.keys [{ ctrl := ctrl, alt := alt, shift := shift, key := .char c }]])) ∧
    (t'.exitPending = true ↔ t.exitPending = true ∨ (c = 'q' ∧ alt = true)) ∧ (c = 'x' → ctrl = false) := by
  have hk : (⟨.char c, ctrl, alt, shift⟩ : Pressed).event = some { ctrl := ctrl, alt := alt, shift := shift, key := .char c } := by
    exact ((C73_modifiers (T := T) (p := p) _).1 _).2 ⟨rfl, rfl, rfl, rfl⟩
  obtain ⟨h1, _, _, h4, h5⟩ := C73_plain hm hk hn h
  refine ⟨?_, ?_, ?_, ?_⟩
  · rintro rfl rfl
    simpa [boundCalls] using h1
  · intro hc
    simp only [List.mem_cons, List.not_mem_nil, or_false, not_or] at hc
    simpa [boundCalls, hc] using h1
  · rw [h4]; simp
  · rintro rfl
    cases ctrl
    · rfl
    · exact absurd ⟨rfl, rfl⟩ h5

/-- The keys that were pressed, in order. -/
def pressedIn (steps : List Tui.Step) : List KeyEvent :=
  steps.flatMap fun s => match s with | .key k => k.event.toList | _ => []

/-- The keys that wait to be treated. -/
def waiting (queue : List (Event T)) : List KeyEvent :=
  queue.flatMap fun e => match e with | .input k => k.event.toList | _ => []

/-- The keys that are sent to the editor by these calls. -/
def keysSent (calls : List Call) : List KeyEvent := calls.flatMap fun c => match c with | .keys ks => ks | _ => []

/-- An ordinary key: a character or escape, without control or alt. -/
def Ordinary (k : KeyEvent) : Prop := k.ctrl = false ∧ k.alt = false ∧ ((∃ c, k.key = .char c) ∨ k.key = .escape)

/-- A line of the server that does not open a menu. -/
def OpensNone (o : Ornament T) (parse : Str → Option Json) (l : Str) : Prop :=
  ∀ c : Connection T, c.state.menu = none → (c.receive o parse l).1.state.menu = none

theorem ordinary_bound {k : KeyEvent} (h : Ordinary k) : boundCalls k = [.keys [k]] := by
  obtain ⟨h1, h2, h3⟩ := h
  unfold boundCalls
  rcases h3 with ⟨c, h3⟩ | h3
  · rw [h3]; simp [h1, h2]
  · rw [h3]

theorem receive_sent (c : Connection T) (l : Str) :
    (c.receive o parse l).1.sent = c.sent ∧ (c.receive o parse l).1.nextRequestId = c.nextRequestId := by
  unfold Connection.receive
  split <;> exact ⟨rfl, rfl⟩

/-- What holds while ordinary keys are typed and no menu opens. -/
structure Typing (a : App T) (calls : List Call) (pressed : List KeyEvent) : Prop where
  numbered : Numbered a.term.connection calls
  menu : a.term.connection.state.menu = none
  stays : a.term.exitPending = false
  keys : keysSent calls ++ waiting a.queue = pressed
  ordinary : ∀ k ∈ waiting a.queue, Ordinary k

theorem keysSent_append (a b : List Call) : keysSent (a ++ b) = keysSent a ++ keysSent b := List.flatMap_append

theorem waiting_append (a b : List (Event T)) : waiting (a ++ b) = waiting a ++ waiting b := List.flatMap_append

theorem treat_same {t t' : Term T} {e : Event T} {ds : List Draw} (h : t.treat p e = .ok (t', ds))
    (hm : t.connection.state.menu = none) {calls : List Call} (hn : Numbered t.connection calls)
    (he : ∀ k, e ≠ .input k) :
    ∃ calls', Numbered t'.connection (calls ++ calls') ∧ keysSent calls' = [] ∧ t'.connection.state = t.connection.state ∧
      t'.exitPending = t.exitPending := by
  have none_ : ∀ {t'' : Term T}, t''.connection = t.connection → t''.exitPending = t.exitPending → t' = t'' →
      ∃ calls', Numbered t'.connection (calls ++ calls') ∧ keysSent calls' = [] ∧ t'.connection.state = t.connection.state ∧
      t'.exitPending = t.exitPending := by
    intro t'' h1 h2 h3
    subst h3
    exact ⟨[], by rw [List.append_nil, h1]; exact hn, rfl, by rw [h1], h2⟩
  cases e with
  | drawMenu m =>
    obtain ⟨d, h1, h⟩ := bind_inv h
    cases h; exact none_ rfl rfl rfl
  | drawView =>
    obtain ⟨d, h1, h⟩ := bind_inv h
    cases h; exact none_ rfl rfl rfl
  | drawHint m =>
    obtain ⟨d, h1, h⟩ := bind_inv h
    cases h; exact none_ rfl rfl rfl
  | drawStatus =>
    obtain ⟨d, h1, h⟩ := bind_inv h
    cases h; exact none_ rfl rfl rfl
  | error msg =>
    obtain ⟨c1, h1, rfl, _⟩ := term_call h
    obtain ⟨h2, h3⟩ := numbered_call hn h1
    exact ⟨_, h2, rfl, h3, rfl⟩
  | input k => exact absurd rfl (he k)
  | resize w hh =>
    have h : t.resize p w hh = .ok (t', ds) := h
    unfold Term.resize at h
    split at h
    · dsimp only at h
      rw [hm] at h
      obtain ⟨d, h1, h⟩ := bind_inv h
      injection h with h
      injection h with h h'
      exact none_ (t'' := { t with width := w, height := hh }) rfl rfl h.symm
    · cases h; exact none_ rfl rfl rfl

theorem typing_step {a a' : App T} {ds : List Draw} {calls : List Call} {pressed : List KeyEvent} (h : Typing a calls pressed)
    {s : Tui.Step} (hs : a.step o p parse errText s = .ok (a', ds)) (hl : ∀ l, s = .line l → OpensNone o parse l)
    (hk : ∀ k ∈ pressedIn [s], Ordinary k) : ∃ calls', Typing a' calls' (pressed ++ pressedIn [s]) := by
  obtain ⟨h1, h2, h3, h4, h5⟩ := h
  cases s with
  | line l =>
    simp only [App.step, Except.ok.injEq, Prod.mk.injEq] at hs
    obtain ⟨rfl, _⟩ := hs
    have hw : waiting (eventOf (errText l) (a.term.connection.receive o parse l).2).toList = [] := by
      cases (a.term.connection.receive o parse l).2 <;> rfl
    refine ⟨calls, ⟨?_, hl l rfl _ h2, h3, ?_, ?_⟩⟩
    · exact ⟨by rw [(receive_sent _ _).1]; exact h1.1, by rw [(receive_sent _ _).2]; exact h1.2⟩
    · show keysSent calls ++ waiting (a.queue ++ _) = _
      rw [waiting_append, hw, List.append_nil, h4]; simp [pressedIn]
    · show ∀ k ∈ waiting (a.queue ++ _), _
      rw [waiting_append, hw, List.append_nil]; exact h5
  | key k =>
    simp only [App.step, Except.ok.injEq, Prod.mk.injEq] at hs
    obtain ⟨rfl, _⟩ := hs
    have hw : waiting (T := T) [.input k] = pressedIn [.key k] := rfl
    refine ⟨calls, ⟨h1, h2, h3, ?_, ?_⟩⟩
    · show keysSent calls ++ waiting (a.queue ++ _) = _
      rw [waiting_append, hw, ← List.append_assoc, h4]
    · show ∀ k ∈ waiting (a.queue ++ _), _
      rw [waiting_append, hw]
      intro k' hk'
      rcases List.mem_append.1 hk' with hk' | hk'
      · exact h5 k' hk'
      · exact hk k' hk'
  | size w hh =>
    simp only [App.step, Except.ok.injEq, Prod.mk.injEq] at hs
    obtain ⟨rfl, _⟩ := hs
    have hw : waiting (T := T) [.resize w hh] = [] := rfl
    refine ⟨calls, ⟨h1, h2, h3, ?_, ?_⟩⟩
    · show keysSent calls ++ waiting (a.queue ++ _) = _
      rw [waiting_append, hw, List.append_nil, h4]; simp [pressedIn]
    · show ∀ k ∈ waiting (a.queue ++ _), _
      rw [waiting_append, hw, List.append_nil]; exact h5
  | fault text =>
    simp only [App.step, Except.ok.injEq, Prod.mk.injEq] at hs
    obtain ⟨rfl, _⟩ := hs
    refine ⟨calls, ⟨h1, h2, h3, ?_, ?_⟩⟩
    · show keysSent calls ++ waiting (a.queue ++ [_]) = _
      rw [waiting_append]
      show keysSent calls ++ (waiting a.queue ++ []) = _
      rw [List.append_nil, h4]; simp [pressedIn]
    · show ∀ k ∈ waiting (a.queue ++ [_]), _
      rw [waiting_append]
      show ∀ k ∈ waiting a.queue ++ [], _
      rw [List.append_nil]; exact h5
  | treat =>
    have hp : pressed ++ pressedIn [Step.treat] = pressed := by simp [pressedIn]
    rw [hp]
    simp only [App.step] at hs
    rw [if_neg (by simp [h3])] at hs
    cases hq : a.queue with
    | nil =>
      simp only [hq] at hs
      cases hs
      exact ⟨calls, ⟨h1, h2, h3, h4, h5⟩⟩
    | cons e q =>
      simp only [hq] at hs
      obtain ⟨⟨t, d⟩, ht, hs⟩ := bind_inv hs
      cases hs
      by_cases hi : ∃ k, e = .input k
      · obtain ⟨k, rfl⟩ := hi
        have ht : a.term.handleInput p k = .ok (t, _) := ht
        have e1 : waiting (.input k :: q) = k.event.toList ++ waiting q := rfl
        rw [hq, e1] at h4 h5
        cases hev : k.event with
        | none =>
          unfold Term.handleInput at ht
          rw [hev] at ht
          cases ht
          rw [hev] at h4 h5
          exact ⟨calls, ⟨h1, h2, h3, h4, h5⟩⟩
        | some ev =>
          rw [hev] at h4 h5
          obtain ⟨i1, i2, _, i4, _⟩ := C73_plain h2 hev h1 ht
          have ho := h5 ev (List.mem_append_left _ (by simp))
          rw [ordinary_bound ho] at i1
          refine ⟨_, ⟨i1, by rw [i2]; exact h2, by rw [i4, h3, ho.2.1]; simp, ?_, fun k' hk' => h5 k' (List.mem_append_right _ hk')⟩⟩
          rw [keysSent_append, ← h4]
          simp [keysSent]
      · obtain ⟨calls', i1, i2, i3, i4⟩ := treat_same ht h2 h1 fun k hk => hi ⟨k, hk⟩
        have e1 : waiting (e :: q) = waiting q := by
          cases e <;> first | rfl | exact absurd ⟨_, rfl⟩ hi
        rw [hq, e1] at h4 h5
        refine ⟨_, ⟨i1, by rw [i3]; exact h2, by rw [i4, h3], ?_, h5⟩⟩
        rw [keysSent_append, i2, List.append_nil, h4]

theorem pressedIn_cons (s : Tui.Step) (ss : List Tui.Step) : pressedIn (s :: ss) = pressedIn [s] ++ pressedIn ss := by
  simp [pressedIn]

theorem typing_run {steps : List Tui.Step} {a a' : App T} {ds : List Draw} {calls : List Call} {pressed : List KeyEvent}
    (h : Typing a calls pressed) (hr : a.run o p parse errText steps = .ok (a', ds))
    (hl : ∀ l, .line l ∈ steps → OpensNone o parse l) (hk : ∀ k ∈ pressedIn steps, Ordinary k) :
    ∃ calls', Typing a' calls' (pressed ++ pressedIn steps) := by
  induction steps generalizing a ds calls pressed with
  | nil => cases hr; exact ⟨calls, by simpa [pressedIn] using h⟩
  | cons s ss ih =>
    obtain ⟨⟨a1, d1⟩, h1, hr⟩ := bind_inv hr
    obtain ⟨⟨a2, d2⟩, h2, hr⟩ := bind_inv hr
    cases hr
    rw [pressedIn_cons] at hk ⊢
    obtain ⟨c1, t1⟩ := typing_step h h1 (fun l e => hl l (e ▸ List.mem_cons_self ..)) fun k hk' => hk k (List.mem_append_left _ hk')
    obtain ⟨c2, t2⟩ := ih t1 h2 (fun l hl' => hl l (List.mem_cons_of_mem _ hl')) fun k hk' => hk k (List.mem_append_right _ hk')
    exact ⟨c2, by rw [← List.append_assoc]; exact t2⟩

theorem new_numbered {w h : Nat} {files : List Str} {t : Term T} (ht : Term.new w h files = .ok t) :
    Numbered t.connection (files.map fun f => .edit f false) ∧ t.connection.state = .empty ∧ t.exitPending = false ∧
      t.width = w ∧ t.height = h := by
  unfold Term.new at ht
  obtain ⟨c, h1, ht⟩ := bind_inv ht
  cases ht
  have key : ∀ (fs : List Str) (c0 : Connection T) (calls : List Call), Numbered c0 calls → c0.state = .empty →
      fs.foldlM (fun c f => Connection.call c (.edit f false)) c0 = .ok c →
      Numbered c (calls ++ fs.map fun f => .edit f false) ∧ c.state = .empty := by
    intro fs
    induction fs with
    | nil => intro c0 calls h1 h2 h; cases h; exact ⟨by simpa using h1, h2⟩
    | cons f fs ih =>
      intro c0 calls h1 h2 h
      rw [List.foldlM_cons] at h
      obtain ⟨c1, h3, h⟩ := bind_inv h
      obtain ⟨h4, h5⟩ := numbered_call h1 h3
      have := ih c1 _ h4 (by rw [h5, h2]) h
      rw [List.map_cons]
      rwa [List.append_assoc] at this
  obtain ⟨i1, i2⟩ := key files Connection.new [] ⟨rfl, rfl⟩ rfl h1
  exact ⟨by simpa using i1, i2, rfl, rfl, rfl⟩

theorem no_keys (files : List Str) : keysSent (files.map fun f => .edit f false) ++ waiting ([] : List (Event T)) = [] := by
  induction files with
  | nil => rfl
  | cons f fs ih => exact ih

/-- C73: for every schedule of the three tasks, and whatever the server sends as long as no menu opens: ordinary keys
are sent to the editor each exactly once, in the order in which they were pressed; those that are not sent yet wait. -/
theorem C73_typed {w h : Nat} {files : List Str} {t : Term T} (ht : Term.new w h files = .ok t) {steps : List Tui.Step}
    {a : App T} {ds : List Draw} (hr : App.run o p parse errText { term := t, queue := [] } steps = .ok (a, ds))
    (hl : ∀ l, .line l ∈ steps → OpensNone o parse l) (hk : ∀ k ∈ pressedIn steps, Ordinary k) :
    ∃ calls, a.term.connection.sent = (calls.zipIdx).map (fun x => Call.request (.number x.2) x.1) ∧
      keysSent calls ++ waiting a.queue = pressedIn steps := by
  obtain ⟨h1, h2, h3, _⟩ := new_numbered ht
  have start : Typing { term := t, queue := [] } (files.map fun f => .edit f false) [] := by
    exact ⟨h1, by rw [h2]; rfl, h3, no_keys files, fun k hk => (by cases hk)⟩
  obtain ⟨calls, t⟩ := typing_run start hr hl hk
  exact ⟨calls, t.numbered.1, by simpa using t.keys⟩

/-- The steps of someone who types in a menu and waits for the answer after each character: the key, its treatment, the
answer of the server (the menu `title` with the entries given), its treatment. -/
def typeSteps (o : Ornament T) (command title : Str) : Str → List (Char × List MenuParamsEntry) → List Tui.Step
  | _, [] => []
  | search, (c, entries) :: rest =>
    [.key ⟨.char c, false, false, false⟩, .treat,
      .line ((Wire.note (.menu command title (search ++ [c]) entries)).encode o).write, .treat] ++
      typeSteps o command title (search ++ [c]) rest

/-- What is asked for when characters are typed one after the other: each time, all that was typed. -/
def prefixes : Str → Str → List Str
  | _, [] => []
  | search, c :: cs => (search ++ [c]) :: prefixes (search ++ [c]) cs

theorem run_append {steps1 steps2 : List Tui.Step} {a a' : App T} {ds : List Draw}
    (h : a.run o p parse errText (steps1 ++ steps2) = .ok (a', ds)) :
    ∃ a1 d1 d2, a.run o p parse errText steps1 = .ok (a1, d1) ∧ a1.run o p parse errText steps2 = .ok (a', d2) := by
  induction steps1 generalizing a ds with
  | nil => exact ⟨a, [], ds, rfl, h⟩
  | cons s ss ih =>
    obtain ⟨⟨a1, d1⟩, h1, h⟩ := bind_inv h
    obtain ⟨⟨a2, d2⟩, h2, h⟩ := bind_inv h
    cases h
    obtain ⟨a3, d3, d4, h3, h4⟩ := ih h2
    refine ⟨a3, d1 ++ d3, d4, ?_, h4⟩
    rw [App.run, h1]
    simp only [except_bind_ok]
    rw [h3]; rfl

theorem run_cons {s : Tui.Step} {ss : List Tui.Step} {a a' : App T} {ds : List Draw}
    (h : a.run o p parse errText (s :: ss) = .ok (a', ds)) :
    ∃ a1 d1 d2, a.step o p parse errText s = .ok (a1, d1) ∧ a1.run o p parse errText ss = .ok (a', d2) := by
  obtain ⟨⟨a1, d1⟩, h1, h⟩ := bind_inv h
  obtain ⟨⟨a2, d2⟩, h2, h⟩ := bind_inv h
  cases h
  exact ⟨a1, d1, d2, h1, h2⟩

theorem treat_one {a a' : App T} {ds : List Draw} {e : Event T} {q : List (Event T)} (he : a.term.exitPending = false)
    (hq : a.queue = e :: q) (h : a.step o p parse errText .treat = .ok (a', ds)) :
    ∃ t, a.term.treat p e = .ok (t, ds) ∧ a' = { term := t, queue := q } := by
  simp only [App.step] at h
  rw [if_neg (by simp [he])] at h
  simp only [hq] at h
  obtain ⟨⟨t, d⟩, ht, h⟩ := bind_inv h
  cases h
  exact ⟨t, ht, rfl⟩

theorem receive_menu (ho : OrnamentOk o) (hp : JsonText.ReadsBack parse) (c : Connection T) (command title search : Str)
    (entries : List MenuParamsEntry) :
    c.receive o parse ((Wire.note (.menu command title search entries)).encode o).write =
      ({ c with state := { c.state with menu := some (seenMenu o command title search entries), echo := none } },
        .menu (seenMenu o command title search entries)) := by
  exact receive_event ho hp (n := .menu command title search entries) (by exact trivial) c

/-- C73: someone who types in a menu and waits for the answer after each character is shown, each time, the menu of all
that was typed. -/
theorem C73_search (ho : OrnamentOk o) (hp : JsonText.ReadsBack parse) {command title search : Str}
    {typed : List (Char × List MenuParamsEntry)} {a a' : App T} {ds : List Draw} {m : RemoteMenu T} {calls : List Call}
    (hm : a.term.connection.state.menu = some m) (hc : m.command = command) (hs : m.search = search)
    (hq : a.queue = []) (he : a.term.exitPending = false) (hn : Numbered a.term.connection calls)
    (h : a.run o p parse errText (typeSteps o command title search typed) = .ok (a', ds)) :
    Numbered a'.term.connection (calls ++ (prefixes search (typed.map (·.1))).map (.menu command)) ∧
    ∃ m', a'.term.connection.state.menu = some m' ∧ m'.command = command ∧ m'.search = search ++ typed.map (·.1) := by
  induction typed generalizing a m search calls ds with
  | nil => cases h; exact ⟨by simpa [prefixes] using hn, m, hm, hc, by simpa using hs⟩
  | cons x rest ih =>
    obtain ⟨c, entries⟩ := x
    obtain ⟨a1, d1, d2, h1, h2⟩ := run_append h
    clear h
    obtain ⟨b1, _, _, k1, h1⟩ := run_cons h1
    cases k1
    obtain ⟨b2, _, _, k2, h1⟩ := run_cons h1
    obtain ⟨t2, k2', rfl⟩ := treat_one (e := .input ⟨.char c, false, false, false⟩) (q := []) (by exact he) (by rw [hq]; rfl) k2
    obtain ⟨i1, i2, _, _, _, i6, _⟩ := C73_menu (k := ⟨.char c, false, false, false⟩) hm rfl hn k2'
    have i6 := i6 c rfl
    obtain ⟨b3, _, _, k3, h1⟩ := run_cons h1
    obtain ⟨b4, _, _, k4, h1⟩ := run_cons h1
    cases h1
    have hrec := receive_menu ho hp t2.connection command title (search ++ [c]) entries
    simp only [App.step, Except.ok.injEq, Prod.mk.injEq] at k3
    obtain ⟨rfl, _⟩ := k3
    simp only [hrec] at k4
    obtain ⟨t4, k4', rfl⟩ := treat_one (q := []) (by exact i2.trans he) rfl k4
    obtain ⟨dd, _, k4'⟩ := bind_inv k4'
    cases k4'
    subst hc hs
    obtain ⟨j1, m', j2, j3, j4⟩ := ih (m := seenMenu o m.command title (m.search ++ [c]) entries)
      (calls := calls ++ [.menu m.command (m.search ++ [c])]) rfl rfl rfl rfl (i2.trans he) i1 h2
    refine ⟨?_, m', j2, j3, ?_⟩
    · rw [List.append_assoc] at j1
      exact j1
    · rw [j4]; simp [seenMenu]

/-- C73 is false of someone who does not wait: two characters that are treated before the answer to the first one arrives
give two searches of one character each, and the first character is lost. -/
theorem C73_lost_refuted {a a' : App T} {ds : List Draw} {m : RemoteMenu T} {calls : List Call} {c1 c2 : Char}
    (hm : a.term.connection.state.menu = some m) (hq : a.queue = []) (he : a.term.exitPending = false)
    (hn : Numbered a.term.connection calls)
    (h : a.run o p parse errText [.key ⟨.char c1, false, false, false⟩, .key ⟨.char c2, false, false, false⟩, .treat, .treat] =
      .ok (a', ds)) :
    Numbered a'.term.connection
      (calls ++ [.menu m.command (m.search ++ [c1]), .menu m.command (m.search ++ [c2])]) := by
  obtain ⟨b1, _, _, k1, h⟩ := run_cons h
  cases k1
  obtain ⟨b2, _, _, k1, h⟩ := run_cons h
  cases k1
  obtain ⟨b3, _, _, k3, h⟩ := run_cons h
  obtain ⟨t3, k3', rfl⟩ := treat_one (e := .input ⟨.char c1, false, false, false⟩) (q := [.input ⟨.char c2, false, false, false⟩]) (by exact he) (by rw [hq]; rfl) k3
  obtain ⟨i1, i2, _, _, _, i6, _⟩ := C73_menu (k := ⟨.char c1, false, false, false⟩) hm rfl hn k3'
  have i6 := i6 c1 rfl
  obtain ⟨b4, _, _, k4, h⟩ := run_cons h
  cases h
  obtain ⟨t4, k4', rfl⟩ := treat_one (q := []) (by exact i2.trans he) rfl k4
  obtain ⟨j1, _⟩ := C73_menu (k := ⟨.char c2, false, false, false⟩) i6 rfl i1 k4'
  rw [List.append_assoc] at j1
  exact j1

/-- C73: once alt-q was treated nothing more is drawn or sent, whatever arrives. -/
theorem C73_left {a a' : App T} {ds : List Draw} {steps : List Tui.Step} (he : a.term.exitPending = true)
    (h : a.run o p parse errText steps = .ok (a', ds)) :
    a'.term.connection.sent = a.term.connection.sent ∧ ds = [] ∧ a'.term.exitPending = true := by
  induction steps generalizing a ds with
  | nil => cases h; exact ⟨rfl, rfl, he⟩
  | cons s ss ih =>
    obtain ⟨⟨a1, d1⟩, h1, h⟩ := bind_inv h
    obtain ⟨⟨a2, d2⟩, h2, h⟩ := bind_inv h
    cases h
    have key : a1.term.exitPending = true ∧ a1.term.connection.sent = a.term.connection.sent ∧ d1 = [] := by
      cases s with
      | line l => cases h1; exact ⟨he, (receive_sent _ _).1, rfl⟩
      | key k => cases h1; exact ⟨he, rfl, rfl⟩
      | size w hh => cases h1; exact ⟨he, rfl, rfl⟩
      | fault text => cases h1; exact ⟨he, rfl, rfl⟩
      | treat =>
        simp only [App.step] at h1
        rw [if_pos he] at h1
        cases h1; exact ⟨he, rfl, rfl⟩
    obtain ⟨i1, i2, i3⟩ := ih key.1 h2
    exact ⟨i1.trans key.2.1, by rw [key.2.2, i2]; rfl, i3⟩

/-! ### C76: the terminal and its connection -/

theorem conn_run_append {c c1 c2 : Connection T} {xs ys : List Connection.Step} (h1 : c.run o parse xs = .ok c1)
    (h2 : c1.run o parse ys = .ok c2) : c.run o parse (xs ++ ys) = .ok c2 := by
  unfold Connection.run at *
  rw [List.foldlM_append, h1]; exact h2

theorem conn_run_one {c c' : Connection T} {x : Connection.Step} (h : c.step o parse x = .ok c') : c.run o parse [x] = .ok c' := by
  unfold Connection.run
  rw [List.foldlM_cons, h]; rfl

/-- The lines read in these steps. -/
def linesIn (steps : List Tui.Step) : List Str := steps.filterMap fun s => match s with | .line l => some l | _ => none

/-- The terminal uses its connection only through its methods. -/
def ByMethods (o : Ornament T) (parse : Str → Option Json) (c c' : Connection T) : Prop :=
  ∃ xs, linesOf xs = [] ∧ c.run o parse xs = .ok c'

theorem byMethods_refl (c : Connection T) : ByMethods o parse c c := ⟨[], rfl, rfl⟩

theorem byMethods_call {t t' : Term T} {x : Call} {ds : List Draw} (h : t.call x = .ok (t', ds)) :
    ByMethods o parse t.connection t'.connection := by
  obtain ⟨c, h1, rfl, _⟩ := term_call h
  exact ⟨[.call x], rfl, conn_run_one h1⟩

theorem treat_connection (o : Ornament T) (parse : Str → Option Json) {t t' : Term T} {e : Event T} {ds : List Draw}
    (h : t.treat p e = .ok (t', ds)) : ByMethods o parse t.connection t'.connection := by
  cases e with
  | drawMenu m => obtain ⟨d, h1, h⟩ := bind_inv h; cases h; exact byMethods_refl _
  | drawView => obtain ⟨d, h1, h⟩ := bind_inv h; cases h; exact byMethods_refl _
  | drawHint m => obtain ⟨d, h1, h⟩ := bind_inv h; cases h; exact byMethods_refl _
  | drawStatus => obtain ⟨d, h1, h⟩ := bind_inv h; cases h; exact byMethods_refl _
  | error msg => exact byMethods_call h
  | resize w hh =>
    have h : t.resize p w hh = .ok (t', ds) := h
    unfold Term.resize at h
    split at h
    · dsimp only at h
      split at h <;> (obtain ⟨d, h1, h⟩ := bind_inv h; cases h; exact byMethods_refl _)
    · cases h; exact byMethods_refl _
  | input k =>
    have h : t.handleInput p k = .ok (t', ds) := h
    unfold Term.handleInput at h
    split at h
    · cases h; exact byMethods_refl _
    · rename_i ev hev
      split at h
      · rename_i m hm
        unfold Term.menuKey at h
        split at h
        · unfold Term.view at h
          obtain ⟨d, h1, h⟩ := bind_inv h
          cases h
          exact ⟨[.menuCancel], rfl, rfl⟩
        · obtain ⟨c1, h1, h⟩ := bind_inv h
          unfold Term.view at h
          obtain ⟨d, h2, h⟩ := bind_inv h
          cases h
          exact ⟨[.menuSelect], rfl, conn_run_one h1⟩
        · unfold Term.menu at h
          obtain ⟨d, h1, h⟩ := bind_inv h
          obtain ⟨d2, h2, h⟩ := bind_inv h
          cases h
          exact ⟨[.menuPrevious], rfl, rfl⟩
        · obtain ⟨c1, h1, h⟩ := bind_inv h
          unfold Term.menu at h
          obtain ⟨d, h2, h⟩ := bind_inv h
          obtain ⟨d2, h3, h⟩ := bind_inv h
          cases h
          exact ⟨[.menuNext], rfl, conn_run_one h1⟩
        · exact byMethods_call h
        · exact byMethods_call h
        · cases h; exact byMethods_refl _
      · unfold Term.plainKey at h
        rcases ite_inv h with ⟨_, h⟩ | ⟨_, h⟩
        · cases h; exact byMethods_refl _
        rcases ite_inv h with ⟨_, h⟩ | ⟨_, h⟩
        · exact byMethods_call h
        rcases ite_inv h with ⟨_, h⟩ | ⟨_, h⟩
        · exact byMethods_call h
        rcases ite_inv h with ⟨_, h⟩ | ⟨_, h⟩
        · exact byMethods_call h
        rcases ite_inv h with ⟨_, h⟩ | ⟨_, h⟩
        · exact byMethods_call h
        rcases ite_inv h with ⟨_, h⟩ | ⟨_, h⟩
        · exact byMethods_call h
        rcases ite_inv h with ⟨_, h⟩ | ⟨_, h⟩
        · cases h
        split at h
        · exact byMethods_call h
        · exact byMethods_call h
        · cases h; exact byMethods_refl _

theorem linesIn_cons (s : Tui.Step) (ss : List Tui.Step) : linesIn (s :: ss) = linesIn [s] ++ linesIn ss := by
  cases s <;> rfl

theorem linesOf_append (xs ys : List Connection.Step) : linesOf (xs ++ ys) = linesOf xs ++ linesOf ys := List.filterMap_append

theorem app_connection {steps : List Tui.Step} {a a' : App T} {ds : List Draw}
    (h : a.run o p parse errText steps = .ok (a', ds)) :
    ∃ xs, linesOf xs = linesIn steps ∧ a.term.connection.run o parse xs = .ok a'.term.connection := by
  induction steps generalizing a ds with
  | nil => cases h; exact ⟨[], rfl, rfl⟩
  | cons s ss ih =>
    obtain ⟨a1, d1, d2, h1, h2⟩ := run_cons h
    obtain ⟨ys, hy1, hy2⟩ := ih h2
    have key : ∃ xs, linesOf xs = linesIn [s] ∧ a.term.connection.run o parse xs = .ok a1.term.connection := by
      cases s with
      | line l => cases h1; exact ⟨[.line l], rfl, rfl⟩
      | key k => cases h1; exact ⟨[], rfl, rfl⟩
      | size w hh => cases h1; exact ⟨[], rfl, rfl⟩
      | fault text => cases h1; exact ⟨[], rfl, rfl⟩
      | treat =>
        simp only [App.step] at h1
        rcases ite_inv h1 with ⟨_, h1⟩ | ⟨_, h1⟩
        · cases h1; exact ⟨[], rfl, rfl⟩
        · split at h1
          · cases h1; exact ⟨[], rfl, rfl⟩
          · obtain ⟨⟨t, d⟩, ht, h1⟩ := bind_inv h1
            cases h1
            exact treat_connection o parse ht
    obtain ⟨xs, hx1, hx2⟩ := key
    exact ⟨xs ++ ys, by rw [linesOf_append, hx1, hy1, ← linesIn_cons], conn_run_append hx2 hy2⟩

theorem new_run {w h : Nat} {files : List Str} {t : Term T} (ht : Term.new w h files = .ok t) :
    Connection.new.run o parse (files.map fun f => .call (.edit f false)) = .ok t.connection := by
  unfold Term.new at ht
  obtain ⟨c, h1, ht⟩ := bind_inv ht
  cases ht
  unfold Connection.run
  rw [List.foldlM_map]
  exact h1

theorem no_lines (files : List Str) : linesOf (files.map fun f => Connection.Step.call (.edit f false)) = [] := by
  induction files with
  | nil => rfl
  | cons f fs ih => exact ih

/-- C76: for every schedule of the three tasks, the terminal shows what the server last said (C51): whatever was pressed
meanwhile, its view, status, message and names are those of the notifications read. -/
theorem C76_mirrors (ho : OrnamentOk o) (hp : JsonText.ReadsBack parse) {w h : Nat} {files : List Str} {t : Term T}
    (ht : Term.new w h files = .ok t) {ws : List Wire} (hf : ∀ n, .note n ∈ ws → Fits n) {steps : List Tui.Step} {a : App T}
    {ds : List Draw} (hl : linesIn steps = readLines (ws.flatMap fun w => frame (w.encode o)))
    (hr : App.run o p parse errText { term := t, queue := [] } steps = .ok (a, ds)) :
    Mirrors o (notesOf ws) a.term.connection.state := by
  obtain ⟨xs, h1, h2⟩ := app_connection hr
  have h3 := conn_run_append (new_run (o := o) (parse := parse) ht) h2
  refine C51_mirrors ho hp hf ?_ h3
  rw [linesOf_append, h1, hl]
  rw [no_lines, List.nil_append]

/-- C76: its requests are numbered from 0 without gaps, the first ones asking for the files of the command line. -/
theorem C76_ids {w h : Nat} {files : List Str} {t : Term T} (ht : Term.new w h files = .ok t) {steps : List Tui.Step}
    {a : App T} {ds : List Draw} (hr : App.run o p parse errText { term := t, queue := [] } steps = .ok (a, ds)) :
    ∃ calls : List Call, a.term.connection.sent =
      ((files.map (fun f => Call.edit f false) ++ calls).zipIdx).map (fun x => Call.request (.number x.2) x.1) := by
  obtain ⟨xs, h1, h2⟩ := app_connection hr
  obtain ⟨hn, _⟩ := new_numbered ht
  obtain ⟨_, _, _, hb, _⟩ := sent_run (new_run (o := o) (parse := parse) ht) (calls := []) ⟨rfl, rfl, by simp [Connection.new]⟩
  obtain ⟨calls, h3, _, h5, ⟨rest, hpre⟩⟩ := sent_run h2 (calls := files.map fun f => .edit f false) ⟨hn.1, hn.2, hb⟩
  exact ⟨rest, by rw [h3, ← hpre]⟩

/-- A drawing of the rows of this view, on a screen of some size. -/
def ViewDrawn (p : Paint T) (view : List (RemoteItem T)) (d : Draw) : Prop :=
  ∃ w h content, d = .at 0 0 false (Str.join str!"\r\n" content) ∧
    List.Forall₂ (RowShown p w) (drawn h (rowsOf view)) content

/-- Whether something is drawn that begins with the first row and is not reversed, as the view does. -/
def isView : Draw → Bool
  | .at 0 0 false _ => true
  | _ => false

/-- The last view drawn. -/
def lastView (ds : List Draw) : Option Draw := ds.reverse.find? isView

theorem lastView_append (a b : List Draw) : lastView (a ++ b) = (lastView b).or (lastView a) := by
  unfold lastView
  rw [List.reverse_append, List.find?_append]

/-- The last view drawn is that of the state, or the view is going to be drawn. -/
def Fresh (p : Paint T) (a : App T) (ds : List Draw) : Prop :=
  .drawView ∈ a.queue ∨ ∃ d, lastView ds = some d ∧ ViewDrawn p a.term.connection.state.view d

theorem lastView_none {ds : List Draw} (h : ∀ d ∈ ds, isView d = false) : lastView ds = none := by
  unfold lastView
  rw [List.find?_eq_none]
  intro d hd
  rw [h d (List.mem_reverse.1 hd)]; simp

theorem lastView_status {w h : Nat} {s : ConnectionState T} {ds : List Draw} (hd : drawStatus p w h s = .ok ds) : lastView ds = none := by
  obtain ⟨text, e, _⟩ := C72_drawn hd
  refine lastView_none fun d hd => ?_
  rw [e, List.mem_singleton] at hd
  subst hd
  simp [isView]

theorem lastView_view {w h : Nat} {s : ConnectionState T} {ds : List Draw} (hd : drawView p w h s = .ok ds) :
    ∃ d, lastView ds = some d ∧ ViewDrawn p s.view d := by
  obtain ⟨content, st, e, h1, h2⟩ := C60_rows hd
  refine ⟨_, ?_, w, h, content, rfl, h2⟩
  rw [e, lastView_append, lastView_status h1]; rfl

theorem entryRows_view {size selected i : Nat} {es : List (RemoteEntry T)} {ds : List Draw}
    (h : entryRows p width size selected es i = .ok ds) : ∀ d ∈ ds, isView d = false := by
  induction es generalizing i ds with
  | nil => cases h; intro d hd; cases hd
  | cons e es ih =>
    rw [entryRows] at h
    split at h
    · cases h; intro d hd; cases hd
    · obtain ⟨v, h1, h⟩ := bind_inv h
      obtain ⟨y, h2, h⟩ := bind_inv h
      obtain ⟨ds1, h3, h⟩ := bind_inv h
      cases h
      have hy := (add16_inv h2).1
      intro d hd
      rcases List.mem_cons.1 hd with rfl | hd
      · unfold isView
        split
        · rename_i e; injection e with e1 e2; omega
        · rfl
      rcases List.mem_cons.1 hd with rfl | hd
      · rfl
      · exact ih h3 d hd

theorem lastView_menu {w h : Nat} {m : RemoteMenu T} {ds : List Draw} (hd : drawMenu p w h m = .ok ds) : lastView ds = none := by
  unfold drawMenu at hd
  obtain ⟨pad, h1, hd⟩ := bind_inv hd
  obtain ⟨size, h2, hd⟩ := bind_inv hd
  obtain ⟨ds1, h3, hd⟩ := bind_inv hd
  cases hd
  refine lastView_none fun d hd => ?_
  rcases List.mem_append.1 hd with hd | hd
  · simp only [List.mem_cons, List.not_mem_nil, or_false] at hd
    rcases hd with rfl | rfl <;> rfl
  · exact entryRows_view h3 d hd

theorem hintRows_view {x y : Nat} {lines : List T} {ds : List Draw} (h : hintRows p height x lines y = .ok ds) :
    ∀ d ∈ ds, isView d = false := by
  induction lines generalizing y ds with
  | nil => cases h; intro d hd; cases hd
  | cons l lines ih =>
    rw [hintRows] at h
    obtain ⟨y', h1, h⟩ := bind_inv h
    split at h
    · cases h
      intro d hd
      rw [List.mem_singleton] at hd
      subst hd
      simp [isView]
    · obtain ⟨ds1, h2, h⟩ := bind_inv h
      cases h
      intro d hd
      rcases List.mem_cons.1 hd with rfl | hd
      · simp [isView]
      · exact ih h2 d hd

theorem lastView_hint {w h : Nat} {hint : List T} {ds : List Draw} (hd : drawHint p w h hint = .ok ds) : lastView ds = none := by
  unfold drawHint at hd
  obtain ⟨f, h1, hd⟩ := bind_inv hd
  obtain ⟨x, h2, hd⟩ := bind_inv hd
  obtain ⟨y, h3, hd⟩ := bind_inv hd
  exact lastView_none (hintRows_view hd)

/-- What the treatment of an event draws: nothing over the last view, or the view as it is. -/
def DrawsFresh (p : Paint T) (view view' : List (RemoteItem T)) (ds : List Draw) : Prop :=
  view' = view ∧ (lastView ds = none ∨ ∃ d, lastView ds = some d ∧ ViewDrawn p view d)

theorem call_fresh {t t' : Term T} {x : Call} {ds : List Draw} (h : t.call x = .ok (t', ds)) :
    DrawsFresh p t.connection.state.view t'.connection.state.view ds := by
  obtain ⟨c, h1, rfl, rfl⟩ := term_call h
  simp only [Connection.call, Connection.requestId] at h1
  split at h1
  · cases h1; exact ⟨rfl, .inl rfl⟩
  · cases h1

theorem treat_fresh {t t' : Term T} {e : Event T} {ds : List Draw} (h : t.treat p e = .ok (t', ds)) :
    DrawsFresh p t.connection.state.view t'.connection.state.view ds ∧
    (e = .drawView → ∃ d, lastView ds = some d ∧ ViewDrawn p t.connection.state.view d) := by
  have viewCase : ∀ {c : Connection T} {t' : Term T} {ds : List Draw}, t.view p c = .ok (t', ds) →
      c.state.view = t.connection.state.view → DrawsFresh p t.connection.state.view t'.connection.state.view ds := by
    intro c t' ds h hc
    unfold Term.view at h
    obtain ⟨d, h1, h⟩ := bind_inv h
    cases h
    exact ⟨hc, .inr (hc ▸ lastView_view h1)⟩
  have menuCase : ∀ {c : Connection T} {t' : Term T} {ds : List Draw}, t.menu p c = .ok (t', ds) →
      c.state.view = t.connection.state.view → DrawsFresh p t.connection.state.view t'.connection.state.view ds := by
    intro c t' ds h hc
    unfold Term.menu at h
    obtain ⟨m, h1, h⟩ := bind_inv h
    obtain ⟨d, h2, h⟩ := bind_inv h
    cases h
    exact ⟨hc, .inl (lastView_menu h2)⟩
  cases e with
  | drawMenu m =>
    obtain ⟨d, h1, h⟩ := bind_inv h; cases h
    exact ⟨⟨rfl, .inl (lastView_menu h1)⟩, fun e => by cases e⟩
  | drawView =>
    obtain ⟨d, h1, h⟩ := bind_inv h; cases h
    exact ⟨⟨rfl, .inr (lastView_view h1)⟩, fun _ => lastView_view h1⟩
  | drawHint m =>
    obtain ⟨d, h1, h⟩ := bind_inv h; cases h
    exact ⟨⟨rfl, .inl (lastView_hint h1)⟩, fun e => by cases e⟩
  | drawStatus =>
    obtain ⟨d, h1, h⟩ := bind_inv h; cases h
    exact ⟨⟨rfl, .inl (lastView_status h1)⟩, fun e => by cases e⟩
  | error msg => exact ⟨call_fresh h, fun e => by cases e⟩
  | resize w hh =>
    refine ⟨?_, fun e => by cases e⟩
    have h : t.resize p w hh = .ok (t', ds) := h
    unfold Term.resize at h
    split at h
    · dsimp only at h
      split at h
      · obtain ⟨d, h1, h⟩ := bind_inv h; cases h
        exact ⟨rfl, .inl (lastView_menu h1)⟩
      · obtain ⟨d, h1, h⟩ := bind_inv h; cases h
        exact ⟨rfl, .inr (lastView_view h1)⟩
    · cases h; exact ⟨rfl, .inl rfl⟩
  | input k =>
    refine ⟨?_, fun e => by cases e⟩
    have h : t.handleInput p k = .ok (t', ds) := h
    unfold Term.handleInput at h
    split at h
    · cases h; exact ⟨rfl, .inl rfl⟩
    · rename_i ev hev
      split at h
      · rename_i m hm
        unfold Term.menuKey at h
        split at h
        · exact viewCase h rfl
        · obtain ⟨c1, h1, h⟩ := bind_inv h
          refine viewCase h ?_
          unfold Connection.menuSelect at h1
          rw [hm] at h1
          obtain ⟨v, h3, h1⟩ := bind_inv h1
          obtain ⟨c2, h4, h1⟩ := bind_inv h1
          cases h1
          simp only [Connection.call, Connection.requestId] at h4
          split at h4
          · cases h4; rfl
          · cases h4
        · exact menuCase h rfl
        · obtain ⟨c1, h1, h⟩ := bind_inv h
          refine menuCase h ?_
          unfold Connection.menuNext at h1
          rw [hm] at h1
          obtain ⟨v, h3, h1⟩ := bind_inv h1
          cases h1; rfl
        · exact call_fresh h
        · exact call_fresh h
        · cases h; exact ⟨rfl, .inl rfl⟩
      · unfold Term.plainKey at h
        rcases ite_inv h with ⟨_, h⟩ | ⟨_, h⟩
        · cases h; exact ⟨rfl, .inl rfl⟩
        rcases ite_inv h with ⟨_, h⟩ | ⟨_, h⟩
        · exact call_fresh h
        rcases ite_inv h with ⟨_, h⟩ | ⟨_, h⟩
        · exact call_fresh h
        rcases ite_inv h with ⟨_, h⟩ | ⟨_, h⟩
        · exact call_fresh h
        rcases ite_inv h with ⟨_, h⟩ | ⟨_, h⟩
        · exact call_fresh h
        rcases ite_inv h with ⟨_, h⟩ | ⟨_, h⟩
        · exact call_fresh h
        rcases ite_inv h with ⟨_, h⟩ | ⟨_, h⟩
        · cases h
        split at h
        · exact call_fresh h
        · exact call_fresh h
        · cases h; exact ⟨rfl, .inl rfl⟩

theorem receive_view (errText : Str) (c : Connection T) (l : Str) :
    (c.receive o parse l).1.state.view = c.state.view ∨
      eventOf errText (c.receive o parse l).2 = some .drawView := by
  unfold Connection.receive
  split
  · rename_i e he
    cases e with
    | response r => exact .inl rfl
    | notification n =>
      show (c.state.eventUpdate o (.notification n)).1.view = _ ∨ eventOf errText ((c.state.eventUpdate o (.notification n)).2.getD .noop) = _
      unfold ConnectionState.eventUpdate
      dsimp only
      split
      · split
        · exact .inl rfl
        · exact .inl rfl
      split
      · exact .inl rfl
      split
      · split <;> exact .inl rfl
      split
      · split <;> exact .inl rfl
      split
      · split <;> exact .inl rfl
      split
      · split
        · exact .inr rfl
        · exact .inl rfl
      · exact .inl rfl
  · exact .inl rfl

theorem fresh_run {steps : List Tui.Step} {a a' : App T} {ds0 ds : List Draw} (hf : Fresh p a ds0)
    (h : a.run o p parse errText steps = .ok (a', ds)) : Fresh p a' (ds0 ++ ds) := by
  induction steps generalizing a ds0 ds with
  | nil => cases h; simpa using hf
  | cons s ss ih =>
    obtain ⟨⟨a1, d1⟩, h1, h⟩ := bind_inv h
    obtain ⟨⟨a2, d2⟩, h2, h⟩ := bind_inv h
    cases h
    rw [← List.append_assoc]
    refine ih ?_ h2
    cases s with
    | line l =>
      simp only [App.step, Except.ok.injEq, Prod.mk.injEq] at h1
      obtain ⟨rfl, rfl⟩ := h1
      rw [List.append_nil]
      rcases hf with hf | hf
      · exact .inl (List.mem_append_left _ hf)
      · rcases receive_view (o := o) (parse := parse) (errText l) a.term.connection l with hv | hv
        · right
          show ∃ d, _ ∧ ViewDrawn p (a.term.connection.receive o parse l).1.state.view d
          rw [hv]; exact hf
        · exact .inl (List.mem_append_right _ (by rw [hv]; simp))
    | key k => cases h1; rw [List.append_nil]; exact hf.imp (fun hf => List.mem_append_left _ hf) id
    | size w hh => cases h1; rw [List.append_nil]; exact hf.imp (fun hf => List.mem_append_left _ hf) id
    | fault text => cases h1; rw [List.append_nil]; exact hf.imp (fun hf => List.mem_append_left _ hf) id
    | treat =>
      simp only [App.step] at h1
      rcases ite_inv h1 with ⟨_, h1⟩ | ⟨_, h1⟩
      · cases h1; rw [List.append_nil]; exact hf
      · cases hq : a.queue with
        | nil => simp only [hq] at h1; cases h1; rw [List.append_nil]; exact hf
        | cons e q =>
          simp only [hq] at h1
          obtain ⟨⟨t, d⟩, ht, h1⟩ := bind_inv h1
          cases h1
          obtain ⟨⟨hv, hd⟩, he⟩ := treat_fresh ht
          unfold Fresh at hf ⊢
          rw [hq] at hf
          dsimp only
          rw [hv, lastView_append]
          rcases hf with hf | hf
          · rcases List.mem_cons.1 hf with hf | hf
            · obtain ⟨x, hx, hvx⟩ := he hf.symm
              exact .inr ⟨x, by rw [hx]; rfl, hvx⟩
            · exact .inl hf
          · rcases hd with hd | ⟨x, hx, hvx⟩
            · exact .inr (by rw [hd]; exact hf)
            · exact .inr ⟨x, by rw [hx]; rfl, hvx⟩

theorem drawn_after {steps1 steps2 : List Tui.Step} {l : Str} {a a' : App T} {ds : List Draw}
    (hl : ∀ c : Connection T, eventOf (errText l) (c.receive o parse l).2 = some .drawView)
    (h : a.run o p parse errText (steps1 ++ .line l :: steps2) = .ok (a', ds)) (hq : a'.queue = []) :
    ∃ d, lastView ds = some d ∧ ViewDrawn p a'.term.connection.state.view d := by
  induction steps1 generalizing a ds with
  | nil =>
    obtain ⟨⟨a1, d1⟩, h1, h⟩ := bind_inv h
    obtain ⟨⟨a2, d2⟩, h2, h⟩ := bind_inv h
    cases h
    simp only [App.step, Except.ok.injEq, Prod.mk.injEq] at h1
    obtain ⟨rfl, rfl⟩ := h1
    have := fresh_run (ds0 := []) (p := p) (.inl (List.mem_append_right _ (by rw [hl]; simp))) h2
    rcases this with this | this
    · rw [hq] at this; cases this
    · exact this
  | cons s ss ih =>
    obtain ⟨⟨a1, d1⟩, h1, h⟩ := bind_inv h
    obtain ⟨⟨a2, d2⟩, h2, h⟩ := bind_inv h
    cases h
    obtain ⟨d, e, hv⟩ := ih h2
    exact ⟨d, by rw [lastView_append, e]; rfl, hv⟩

/-- C76: for every schedule, once the server has sent a view: when the main loop has treated all the events, the last view
drawn is the one the terminal was last sent, row for row (cut or padded as in C60). -/
theorem C76_drawn (ho : OrnamentOk o) (hp : JsonText.ReadsBack parse) {steps1 steps2 : List Tui.Step}
    {items : List ViewParamsItem} (hf : Fits (.view items)) {a a' : App T} {ds : List Draw}
    (h : a.run o p parse errText (steps1 ++ .line ((Wire.note (.view items)).encode o).write :: steps2) = .ok (a', ds))
    (hq : a'.queue = []) :
    ∃ d, lastView ds = some d ∧ ViewDrawn p a'.term.connection.state.view d := by
  refine drawn_after (fun c => ?_) h hq
  rw [receive_event ho hp hf]; rfl

/-! #### The status line -/

/-- A drawing of the status line of this state, on a screen of this size: as in C72. -/
def StatusDrawn (p : Paint T) (width height : Nat) (s : ConnectionState T) (d : Draw) : Prop :=
  ∃ text, d = .at 0 height true text ∧
    (width ≤ echoLen p s → text = p.render (s.echo.getD p.blank)) ∧
    (echoLen p s < width → text = p.render (s.echo.getD p.blank) ++
      List.replicate (width - echoLen p s - (statusShown p s).byteLen) ' ' ++ statusShown p s)

/-- Whether something is drawn, reversed, at the beginning of the row `h`. -/
def isAt (h : Nat) : Draw → Bool
  | .at 0 y true _ => decide (y = h)
  | _ => false

/-- The last thing drawn, reversed, at the beginning of the row `h`. -/
def lastAt (h : Nat) (ds : List Draw) : Option Draw := ds.reverse.find? (isAt h)

theorem lastAt_append (h : Nat) (a b : List Draw) : lastAt h (a ++ b) = (lastAt h b).or (lastAt h a) := by
  unfold lastAt
  rw [List.reverse_append, List.find?_append]

theorem lastAt_none {h : Nat} {ds : List Draw} (hd : ∀ d ∈ ds, isAt h d = false) : lastAt h ds = none := by
  unfold lastAt
  rw [List.find?_eq_none]
  intro d hm
  rw [hd d (List.mem_reverse.1 hm)]; simp

theorem isAt_ne {h x y : Nat} {r : Bool} {t : Str} (hy : y ≠ h) : isAt h (.at x y r t) = false := by
  unfold isAt
  split
  · rename_i e; injection e with e1 e2 e3 e4; rw [← e2]; exact decide_eq_false hy
  · rfl

theorem lastAt_status {w h : Nat} {s : ConnectionState T} {ds : List Draw} (hd : drawStatus p w h s = .ok ds) :
    ∃ d, lastAt h ds = some d ∧ StatusDrawn p w h s d := by
  obtain ⟨text, e, h1, h2⟩ := C72_drawn hd
  refine ⟨_, ?_, text, rfl, h1, fun hw => (h2 hw).1⟩
  rw [e]
  simp [lastAt, isAt]

theorem lastAt_view {w h : Nat} {s : ConnectionState T} {ds : List Draw} (hd : drawView p w h s = .ok ds) :
    ∃ d, lastAt h ds = some d ∧ StatusDrawn p w h s d := by
  unfold drawView at hd
  obtain ⟨content, h1, hd⟩ := bind_inv hd
  obtain ⟨st, h2, hd⟩ := bind_inv hd
  cases hd
  obtain ⟨d, e, hs⟩ := lastAt_status h2
  exact ⟨d, by rw [lastAt_append, e]; rfl, hs⟩

theorem entryRows_at {size selected i : Nat} {es : List (RemoteEntry T)} {ds : List Draw} {H : Nat} (hH : size < H) (hi : i ≤ size)
    (h : entryRows p width size selected es i = .ok ds) : ∀ d ∈ ds, isAt H d = false := by
  induction es generalizing i ds with
  | nil => cases h; intro d hd; cases hd
  | cons e es ih =>
    rw [entryRows] at h
    split at h
    · cases h; intro d hd; cases hd
    · rename_i hne
      obtain ⟨v, h1, h⟩ := bind_inv h
      obtain ⟨y, h2, h⟩ := bind_inv h
      obtain ⟨ds1, h3, h⟩ := bind_inv h
      cases h
      have hy := (add16_inv h2).1
      have hu : u16 i ≤ i := Nat.mod_le _ _
      intro d hd
      rcases List.mem_cons.1 hd with rfl | hd
      · exact isAt_ne (by omega)
      rcases List.mem_cons.1 hd with rfl | hd
      · rfl
      · exact ih (by omega) h3 d hd

theorem lastAt_menu {w h : Nat} {m : RemoteMenu T} {ds : List Draw} (hd : drawMenu p w h m = .ok ds) : lastAt h ds = none := by
  unfold drawMenu at hd
  obtain ⟨pad, h1, hd⟩ := bind_inv hd
  obtain ⟨size, h2, hd⟩ := bind_inv hd
  obtain ⟨ds1, h3, hd⟩ := bind_inv hd
  cases hd
  have hsz : size + 1 = h := by
    unfold subChecked at h2
    split at h2
    · cases h2; omega
    · cases h2
  refine lastAt_none fun d hd => ?_
  rcases List.mem_append.1 hd with hd | hd
  · simp only [List.mem_cons, List.not_mem_nil, or_false] at hd
    rcases hd with rfl | rfl
    · rfl
    · exact isAt_ne (by omega)
  · exact entryRows_at (by omega) (by omega) h3 d hd

theorem hintRows_at {x y : Nat} {lines : List T} {ds : List Draw} (hy : y < height) (h : hintRows p height x lines y = .ok ds) :
    ∀ d ∈ ds, isAt height d = false := by
  induction lines generalizing y ds with
  | nil => cases h; intro d hd; cases hd
  | cons l lines ih =>
    rw [hintRows] at h
    obtain ⟨y', h1, h⟩ := bind_inv h
    have hy' := (add16_inv h1).1
    split at h
    · cases h
      intro d hd
      rw [List.mem_singleton] at hd
      subst hd
      exact isAt_ne (by omega)
    · obtain ⟨ds1, h2, h⟩ := bind_inv h
      cases h
      intro d hd
      rcases List.mem_cons.1 hd with rfl | hd
      · exact isAt_ne (by omega)
      · exact ih (by omega) h2 d hd

/-- A hint whose number of lines is not a multiple of 65536 (the width of the numbers of the terminal). -/
def SomeLines (l : List T) : Prop := l.length % 65536 ≠ 0

theorem lastAt_hint {w h : Nat} {hint : List T} {ds : List Draw} (hl : SomeLines hint) (hd : drawHint p w h hint = .ok ds) :
    lastAt h ds = none := by
  unfold drawHint at hd
  obtain ⟨f, h1, hd⟩ := bind_inv hd
  obtain ⟨x, h2, hd⟩ := bind_inv hd
  obtain ⟨y, h3, hd⟩ := bind_inv hd
  refine lastAt_none (hintRows_at ?_ hd)
  unfold SomeLines at hl
  unfold subChecked u16 at h3
  split at h3
  · cases h3; omega
  · cases h3

/-- The parts of the state that the status line shows. -/
def sameStatus (s s' : ConnectionState T) : Prop := s'.echo = s.echo ∧ s'.status = s.status

theorem statusDrawn_same {s s' : ConnectionState T} (h : sameStatus s s') {w hh : Nat} {d : Draw} (hd : StatusDrawn p w hh s d) :
    StatusDrawn p w hh s' d := by
  have e1 : echoLen p s' = echoLen p s := by unfold echoLen; rw [h.1]
  have e2 : statusShown p s' = statusShown p s := by unfold statusShown; rw [h.2]
  unfold StatusDrawn
  rw [e1, e2, h.1]
  exact hd

/-- What the treatment of an event does to the status line: nothing; or it is drawn as it is; or a menu is open. -/
def DrawsStatus (p : Paint T) (t t' : Term T) (ds : List Draw) : Prop :=
  t'.connection.state.menu ≠ none ∨
  (∃ d, lastAt t'.height ds = some d ∧ StatusDrawn p t'.width t'.height t'.connection.state d) ∨
  (sameStatus t.connection.state t'.connection.state ∧ t'.width = t.width ∧ t'.height = t.height ∧
    t.connection.state.menu = none ∧ lastAt t'.height ds = none)

theorem call_status {t t' : Term T} {x : Call} {ds : List Draw} (h : t.call x = .ok (t', ds)) : DrawsStatus p t t' ds := by
  obtain ⟨c, h1, rfl, rfl⟩ := term_call h
  simp only [Connection.call, Connection.requestId] at h1
  split at h1
  · cases h1
    by_cases hm : t.connection.state.menu = none
    · exact .inr (.inr ⟨⟨rfl, rfl⟩, rfl, rfl, hm, rfl⟩)
    · exact .inl hm
  · cases h1

theorem same_status {t : Term T} {ds : List Draw} (h : lastAt t.height ds = none) : DrawsStatus p t t ds := by
  by_cases hm : t.connection.state.menu = none
  · exact .inr (.inr ⟨⟨rfl, rfl⟩, rfl, rfl, hm, h⟩)
  · exact .inl hm

theorem treat_status {t t' : Term T} {e : Event T} {ds : List Draw} (hl : ∀ l, e = .drawHint l → SomeLines l)
    (h : t.treat p e = .ok (t', ds)) :
    DrawsStatus p t t' ds ∧ (e = .drawView ∨ e = .drawStatus → ∃ d, lastAt t'.height ds = some d ∧
      StatusDrawn p t'.width t'.height t'.connection.state d) := by
  have viewCase : ∀ {c : Connection T} {t' : Term T} {ds : List Draw}, t.view p c = .ok (t', ds) → DrawsStatus p t t' ds := by
    intro c t' ds h
    unfold Term.view at h
    obtain ⟨d, h1, h⟩ := bind_inv h
    cases h
    exact .inr (.inl (lastAt_view h1))
  have menuCase : ∀ {c : Connection T} {t' : Term T} {ds : List Draw}, t.menu p c = .ok (t', ds) → DrawsStatus p t t' ds := by
    intro c t' ds h
    unfold Term.menu at h
    obtain ⟨m, h1, h⟩ := bind_inv h
    obtain ⟨d, h2, h⟩ := bind_inv h
    cases h
    left
    rw [unwrap_inv h1]
    simp
  cases e with
  | drawMenu m =>
    obtain ⟨d, h1, h⟩ := bind_inv h; cases h
    exact ⟨same_status (lastAt_menu h1), fun e => by rcases e with e | e <;> cases e⟩
  | drawView =>
    obtain ⟨d, h1, h⟩ := bind_inv h; cases h
    exact ⟨.inr (.inl (lastAt_view h1)), fun _ => lastAt_view h1⟩
  | drawHint m =>
    obtain ⟨d, h1, h⟩ := bind_inv h; cases h
    exact ⟨same_status (lastAt_hint (hl m rfl) h1), fun e => by rcases e with e | e <;> cases e⟩
  | drawStatus =>
    obtain ⟨d, h1, h⟩ := bind_inv h; cases h
    exact ⟨.inr (.inl (lastAt_status h1)), fun _ => lastAt_status h1⟩
  | error msg => exact ⟨call_status h, fun e => by rcases e with e | e <;> cases e⟩
  | resize w hh =>
    refine ⟨?_, fun e => by rcases e with e | e <;> cases e⟩
    have h : t.resize p w hh = .ok (t', ds) := h
    unfold Term.resize at h
    split at h
    · dsimp only at h
      split at h
      · rename_i m hm
        obtain ⟨d, h1, h⟩ := bind_inv h; cases h
        left
        show t.connection.state.menu ≠ none
        rw [hm]; simp
      · obtain ⟨d, h1, h⟩ := bind_inv h; cases h
        exact .inr (.inl (lastAt_view h1))
    · cases h; exact same_status rfl
  | input k =>
    refine ⟨?_, fun e => by rcases e with e | e <;> cases e⟩
    have h : t.handleInput p k = .ok (t', ds) := h
    unfold Term.handleInput at h
    split at h
    · cases h; exact same_status rfl
    · rename_i ev hev
      split at h
      · rename_i m hm
        unfold Term.menuKey at h
        split at h
        · exact viewCase h
        · obtain ⟨c1, h1, h⟩ := bind_inv h
          exact viewCase h
        · exact menuCase h
        · obtain ⟨c1, h1, h⟩ := bind_inv h
          exact menuCase h
        · exact call_status h
        · exact call_status h
        · cases h; exact same_status rfl
      · unfold Term.plainKey at h
        rename_i hm
        rcases ite_inv h with ⟨_, h⟩ | ⟨_, h⟩
        · cases h; exact .inr (.inr ⟨⟨rfl, rfl⟩, rfl, rfl, hm, rfl⟩)
        rcases ite_inv h with ⟨_, h⟩ | ⟨_, h⟩
        · exact call_status h
        rcases ite_inv h with ⟨_, h⟩ | ⟨_, h⟩
        · exact call_status h
        rcases ite_inv h with ⟨_, h⟩ | ⟨_, h⟩
        · exact call_status h
        rcases ite_inv h with ⟨_, h⟩ | ⟨_, h⟩
        · exact call_status h
        rcases ite_inv h with ⟨_, h⟩ | ⟨_, h⟩
        · exact call_status h
        rcases ite_inv h with ⟨_, h⟩ | ⟨_, h⟩
        · cases h
        split at h
        · exact call_status h
        · exact call_status h
        · cases h; exact same_status rfl

theorem receive_status (errText : Str) (c : Connection T) (l : Str) :
    ((c.receive o parse l).1.state.menu = c.state.menu ∧ sameStatus c.state (c.receive o parse l).1.state) ∨
      (c.receive o parse l).1.state.menu ≠ none ∨
      eventOf errText (c.receive o parse l).2 = some .drawView ∨ eventOf errText (c.receive o parse l).2 = some .drawStatus := by
  unfold Connection.receive
  split
  · rename_i e he
    cases e with
    | response r => exact .inl ⟨rfl, rfl, rfl⟩
    | notification n =>
      show ((c.state.eventUpdate o (.notification n)).1.menu = _ ∧ sameStatus c.state (c.state.eventUpdate o (.notification n)).1) ∨
        (c.state.eventUpdate o (.notification n)).1.menu ≠ none ∨
        eventOf errText ((c.state.eventUpdate o (.notification n)).2.getD .noop) = _ ∨
        eventOf errText ((c.state.eventUpdate o (.notification n)).2.getD .noop) = _
      unfold ConnectionState.eventUpdate
      dsimp only
      split
      · split
        · exact .inr (.inr (.inl rfl))
        · exact .inl ⟨rfl, rfl, rfl⟩
      split
      · exact .inl ⟨rfl, rfl, rfl⟩
      split
      · split <;> exact .inl ⟨rfl, rfl, rfl⟩
      split
      · split
        · exact .inr (.inl (by simp))
        · exact .inl ⟨rfl, rfl, rfl⟩
      split
      · split
        · exact .inr (.inr (.inr rfl))
        · exact .inl ⟨rfl, rfl, rfl⟩
      split
      · split <;> exact .inl ⟨rfl, rfl, rfl⟩
      · exact .inl ⟨rfl, rfl, rfl⟩
  · exact .inl ⟨rfl, rfl, rfl⟩

/-- A menu is open, or the status line is going to be drawn, or it was drawn as it is. -/
def FreshStatus (p : Paint T) (a : App T) (ds : List Draw) : Prop :=
  a.term.connection.state.menu ≠ none ∨ (.drawView ∈ a.queue ∨ .drawStatus ∈ a.queue) ∨
  ∃ d, lastAt a.term.height ds = some d ∧ StatusDrawn p a.term.width a.term.height a.term.connection.state d

/-- The hints that the server sends have some lines (see `SomeLines`). -/
def HintsOk (o : Ornament T) (parse : Str → Option Json) (l : Str) : Prop :=
  ∀ (c : Connection T) h, (c.receive o parse l).2 = .hint h → SomeLines h

theorem freshStatus_run {steps : List Tui.Step} (hl : ∀ l, .line l ∈ steps → HintsOk o parse l) {a a' : App T} {ds0 ds : List Draw}
    (hq : ∀ h, .drawHint h ∈ a.queue → SomeLines h) (hf : FreshStatus p a ds0)
    (h : a.run o p parse errText steps = .ok (a', ds)) : FreshStatus p a' (ds0 ++ ds) := by
  induction steps generalizing a ds0 ds with
  | nil => cases h; simpa using hf
  | cons s ss ih =>
    obtain ⟨⟨a1, d1⟩, h1, h⟩ := bind_inv h
    obtain ⟨⟨a2, d2⟩, h2, h⟩ := bind_inv h
    cases h
    rw [← List.append_assoc]
    suffices hs : (∀ h, .drawHint h ∈ a1.queue → SomeLines h) ∧ FreshStatus p a1 (ds0 ++ d1) from
      ih (fun l hm => hl l (List.mem_cons_of_mem _ hm)) hs.1 hs.2 h2
    cases s with
    | line l =>
      simp only [App.step, Except.ok.injEq, Prod.mk.injEq] at h1
      obtain ⟨rfl, rfl⟩ := h1
      rw [List.append_nil]
      refine ⟨?_, ?_⟩
      · intro hh hm
        rcases List.mem_append.1 hm with hm | hm
        · exact hq hh hm
        · refine hl l List.mem_cons_self a.term.connection hh ?_
          revert hm
          cases (a.term.connection.receive o parse l).2 <;> intro hm <;> simp [eventOf] at hm
          rw [hm]
      · rcases receive_status (o := o) (parse := parse) (errText l) a.term.connection l with ⟨e1, e2⟩ | hv | hv | hv
        · rcases hf with hf | hf | ⟨d, hd, hs⟩
          · exact .inl (by rw [← e1] at hf; exact hf)
          · exact .inr (.inl (hf.imp (List.mem_append_left _) (List.mem_append_left _)))
          · exact .inr (.inr ⟨d, hd, statusDrawn_same e2 hs⟩)
        · exact .inl hv
        · exact .inr (.inl (.inl (List.mem_append_right _ (by rw [hv]; simp))))
        · exact .inr (.inl (.inr (List.mem_append_right _ (by rw [hv]; simp))))
    | key k =>
      cases h1
      rw [List.append_nil]
      exact ⟨fun hh hm => hq hh (by simpa using hm), hf.imp id (fun hf => hf.imp (fun hf => hf.imp (List.mem_append_left _) (List.mem_append_left _)) id)⟩
    | size w hh =>
      cases h1
      rw [List.append_nil]
      exact ⟨fun hh hm => hq hh (by simpa using hm), hf.imp id (fun hf => hf.imp (fun hf => hf.imp (List.mem_append_left _) (List.mem_append_left _)) id)⟩
    | fault text =>
      cases h1
      rw [List.append_nil]
      exact ⟨fun hh hm => hq hh (by simpa using hm), hf.imp id (fun hf => hf.imp (fun hf => hf.imp (List.mem_append_left _) (List.mem_append_left _)) id)⟩
    | treat =>
      simp only [App.step] at h1
      rcases ite_inv h1 with ⟨_, h1⟩ | ⟨_, h1⟩
      · cases h1; rw [List.append_nil]; exact ⟨hq, hf⟩
      · cases hqq : a.queue with
        | nil => simp only [hqq] at h1; cases h1; rw [List.append_nil]; exact ⟨hq, hf⟩
        | cons e q =>
          simp only [hqq] at h1
          obtain ⟨⟨t, d⟩, ht, h1⟩ := bind_inv h1
          cases h1
          rw [hqq] at hq
          refine ⟨fun hh hm => hq hh (List.mem_cons_of_mem _ hm), ?_⟩
          obtain ⟨hd, he⟩ := treat_status (fun l hl => hq l (by rw [hl]; exact List.mem_cons_self)) ht
          rcases hd with hd | ⟨x, hx, hsx⟩ | ⟨d1, d2, d3, d4, d5⟩
          · exact .inl hd
          · exact .inr (.inr ⟨x, by dsimp only; rw [lastAt_append, hx]; rfl, hsx⟩)
          · unfold FreshStatus at hf
            rw [hqq] at hf
            have drawn : e = .drawView ∨ e = .drawStatus → FreshStatus p { term := t, queue := q } (ds0 ++ d) := by
              intro hee
              obtain ⟨x, hx, hsx⟩ := he hee
              exact .inr (.inr ⟨x, by dsimp only; rw [lastAt_append, hx]; rfl, hsx⟩)
            rcases hf with hf | hf | ⟨x, hx, hsx⟩
            · exact absurd d4 hf
            · rcases hf with hf | hf
              · rcases List.mem_cons.1 hf with hf | hf
                · exact drawn (.inl hf.symm)
                · exact .inr (.inl (.inl hf))
              · rcases List.mem_cons.1 hf with hf | hf
                · exact drawn (.inr hf.symm)
                · exact .inr (.inl (.inr hf))
            · refine .inr (.inr ⟨x, ?_, ?_⟩)
              · dsimp only
                rw [lastAt_append, d5, d3]
                exact hx
              · dsimp only
                rw [d2, d3]
                exact statusDrawn_same d1 hsx

theorem app_append {s1 s2 : List Tui.Step} {a a' : App T} {ds : List Draw} (h : a.run o p parse errText (s1 ++ s2) = .ok (a', ds)) :
    ∃ b d1 d2, a.run o p parse errText s1 = .ok (b, d1) ∧ b.run o p parse errText s2 = .ok (a', d2) ∧ ds = d1 ++ d2 := by
  induction s1 generalizing a ds with
  | nil => exact ⟨a, [], ds, rfl, h, rfl⟩
  | cons s ss ih =>
    obtain ⟨⟨a1, d1⟩, h1, h⟩ := bind_inv h
    obtain ⟨⟨a2, d2⟩, h2, h⟩ := bind_inv h
    cases h
    obtain ⟨b, e1, e2, h3, h4, h5⟩ := ih h2
    refine ⟨b, d1 ++ e1, e2, ?_, h4, by rw [h5, List.append_assoc]⟩
    show (do
      let x ← a.step o p parse errText s
      let y ← App.run o p parse errText x.1 ss
      return (y.1, x.2 ++ y.2)) = _
    rw [h1, except_bind_ok]
    dsimp only
    rw [h3]
    rfl

/-- The hints that wait are among those sent. -/
theorem queue_hints {steps : List Tui.Step} (hl : ∀ l, .line l ∈ steps → HintsOk o parse l) {a a' : App T} {ds : List Draw}
    (hq : ∀ h, .drawHint h ∈ a.queue → SomeLines h)
    (h : a.run o p parse errText steps = .ok (a', ds)) : ∀ h, .drawHint h ∈ a'.queue → SomeLines h := by
  induction steps generalizing a ds with
  | nil => cases h; exact hq
  | cons s ss ih =>
    obtain ⟨⟨a1, d1⟩, h1, h⟩ := bind_inv h
    obtain ⟨⟨a2, d2⟩, h2, h⟩ := bind_inv h
    cases h
    refine ih (fun l hm => hl l (List.mem_cons_of_mem _ hm)) ?_ h2
    cases s with
    | line l =>
      simp only [App.step, Except.ok.injEq, Prod.mk.injEq] at h1
      obtain ⟨rfl, rfl⟩ := h1
      intro hh hm
      rcases List.mem_append.1 hm with hm | hm
      · exact hq hh hm
      · refine hl l List.mem_cons_self a.term.connection hh ?_
        revert hm
        cases (a.term.connection.receive o parse l).2 <;> intro hm <;> simp [eventOf] at hm
        rw [hm]
    | key k => cases h1; exact fun hh hm => hq hh (by simpa using hm)
    | size w hh => cases h1; exact fun hh hm => hq hh (by simpa using hm)
    | fault text => cases h1; exact fun hh hm => hq hh (by simpa using hm)
    | treat =>
      simp only [App.step] at h1
      rcases ite_inv h1 with ⟨_, h1⟩ | ⟨_, h1⟩
      · cases h1; exact hq
      · cases hqq : a.queue with
        | nil => simp only [hqq] at h1; cases h1; exact hq
        | cons e q =>
          simp only [hqq] at h1
          obtain ⟨⟨t, d⟩, ht, h1⟩ := bind_inv h1
          cases h1
          exact fun hh hm => hq hh (by rw [hqq]; exact List.mem_cons_of_mem _ hm)

/-- C76: for every schedule, once the server has sent a message, a status or a view: when the main loop has treated all the
events and no menu is open, the last status line drawn shows the message and the status that the terminal was last sent, on
the screen as it is now. -/
theorem C76_status (ho : OrnamentOk o) (hp : JsonText.ReadsBack parse) {steps1 steps2 : List Tui.Step} {n : Note} (hf : Fits n)
    (hn : (∃ t f, n = .echo t f) ∨ (∃ items, n = .status items) ∨ ∃ items, n = .view items) {t : Term T} {a : App T} {ds : List Draw}
    (hl : ∀ l, .line l ∈ steps1 ++ .line ((Wire.note n).encode o).write :: steps2 → HintsOk o parse l)
    (h : App.run o p parse errText { term := t, queue := [] } (steps1 ++ .line ((Wire.note n).encode o).write :: steps2) = .ok (a, ds))
    (hq : a.queue = []) (hm : a.term.connection.state.menu = none) :
    ∃ d, lastAt a.term.height ds = some d ∧ StatusDrawn p a.term.width a.term.height a.term.connection.state d := by
  obtain ⟨b, d1, d2, h1, h2, rfl⟩ := app_append h
  have hq1 := queue_hints (fun l hm => hl l (List.mem_append_left _ hm)) (by intro h hm; cases hm) h1
  obtain ⟨⟨b1, e1⟩, h3, h2⟩ := bind_inv h2
  obtain ⟨⟨b2, e2⟩, h4, h2⟩ := bind_inv h2
  cases h2
  simp only [App.step, Except.ok.injEq, Prod.mk.injEq] at h3
  obtain ⟨rfl, rfl⟩ := h3
  have hqueue : ∀ (x : Event T), eventOf (errText ((Wire.note n).encode o).write) (noteEvent o n) = some x → x ∈
      b.queue ++ (eventOf (errText ((Wire.note n).encode o).write) (b.term.connection.receive o parse ((Wire.note n).encode o).write).2).toList := by
    intro x hx
    refine List.mem_append_right _ ?_
    rw [receive_event ho hp hf, hx]
    simp
  have hfr : FreshStatus p { term := { b.term with
        connection := (b.term.connection.receive o parse ((Wire.note n).encode o).write).1 }
                             queue := b.queue ++ (eventOf (errText ((Wire.note n).encode o).write) (b.term.connection.receive o parse ((Wire.note n).encode o).write).2).toList } d1 := by
    refine .inr (.inl ?_)
    rcases hn with ⟨t, f, rfl⟩ | ⟨items, rfl⟩ | ⟨items, rfl⟩
    · exact .inl (hqueue .drawView rfl)
    · exact .inr (hqueue .drawStatus rfl)
    · exact .inl (hqueue .drawView rfl)
  have := freshStatus_run (fun l hm => hl l (List.mem_append_right _ (List.mem_cons_of_mem _ hm))) (by
    intro hh hmem
    rcases List.mem_append.1 hmem with hmem | hmem
    · exact hq1 hh hmem
    · refine hl _ (List.mem_append_right _ List.mem_cons_self) b.term.connection hh ?_
      revert hmem
      cases (b.term.connection.receive o parse ((Wire.note n).encode o).write).2 <;> intro hmem <;> simp [eventOf] at hmem
      rw [hmem]) hfr h4
  rcases this with this | this | this
  · exact absurd hm this
  · rw [hq] at this
    rcases this with h | h <;> cases h
  · exact this

/-! ### Examples -/

/-- how the texts of the examples are drawn: without decoration -/
def bare : Paint (List (Str × Face)) where
  render t := t.flatMap (·.1)
  renderMenu t := t.flatMap (·.1)
  textLen t := (t.flatMap (·.1)).length
  plain t := t.flatMap (·.1)
  blank := []

/-- a view of two buffers, of two lines each -/
def twoItems : List (RemoteItem (List (Str × Face))) :=
  [⟨str!"f", 1, 2, [⟨[[(str!"one", .default)], [(str!"a very long line", .default)]], 1⟩]⟩,
   ⟨str!"g", 1, 2, [⟨[[(str!"three", .default)], [(str!"four", .default)]], 1⟩]⟩]

/-- a state that shows them -/
def twoState : ConnectionState (List (Str × Face)) :=
  { ConnectionState.empty with view := twoItems, echo := some [(str!"hi", .default)],
                               status := [(80, [(str!"g", .default)]), (90, [(str!"n", .default)])] }

/-- C60_rows applies: on a screen of three rows the last line is left out, and the second one is cut. -/
example : drawView bare 12 3 { twoState with view := twoItems.take 1 } = .ok
    [.clear, .at 0 0 false str!"-[f][1:2]---\r\none", .at 0 3 true str!"hi      g·n"] ∧
    drawView bare 12 4 { twoState with view := twoItems.take 1 } = .ok
    [.clear, .at 0 0 false str!"-[f][1:2]---\r\none\r\na very long ", .at 0 4 true str!"hi      g·n"] := by decide +kernel

/-- C60_overflow_refuted applies: on a screen of four rows, where the second header would come on the last row, the six
rows are drawn. -/
example : drawView bare 12 4 twoState = .ok [.clear,
    .at 0 0 false str!"-[f][1:2]---\r\none\r\na very long \r\n-[g][1:2]---\r\nthree\r\nfour", .at 0 4 true str!"hi      g·n"] := by
  decide +kernel

/-- C60_crash applies: a screen of eight columns is too narrow for the header; the rows are those of the view. -/
example : drawView bare 8 4 twoState = .error .overflow ∧ (rowsOf twoState.view).any Row.isLine ∧
    (drawView bare 12 0 twoState = .error .overflow) := by decide +kernel

/-- C60_escape_refuted applies: with a decoration of four characters before the text, six characters are seen out of ten
columns. -/
example : lineRow { bare with render := fun t => str!"\x1b[7m" ++ t.flatMap (·.1) ++ str!"\x1b[0m" } 10
    [(str!"a very long line", .default)] = .ok str!"\x1b[7ma very" := by decide +kernel

/-- C72 applies: with a screen of six columns the message `hi` and the status `g·n` do not fit and the client crashes; with
seven they do; with two the message is as wide as the screen. -/
example : drawStatus bare 7 4 twoState = .ok [.at 0 4 true str!"hi g·n"] ∧ drawStatus bare 6 4 twoState = .error .overflow ∧
    drawStatus bare 2 4 twoState = .ok [.at 0 4 true str!"hi"] := by decide +kernel

/-- the status line of a real session (`statusLine`, Spec/Scripts) crashes a terminal of 15 columns, and so does the first
view that is drawn there -/
example : (∃ items, statusLine str!"default" 1 [] .normal = .status items ∧
    drawStatus bare 15 10 { ConnectionState.empty with status := items.map fun i => (i.1, [(i.2, .default)]) } = .error .overflow) := by
  exact ⟨_, rfl, by decide +kernel⟩

/-- a menu of three entries, the second one highlighted -/
def threeEntries : RemoteMenu (List (Str × Face)) :=
  ⟨str!"open", str!"file", str!"a", [⟨str!"1", [(str!"abc", .default)], none⟩, ⟨str!"2", [(str!"a much too long entry", .default)], none⟩,
    ⟨str!"3", [(str!"xa", .match_)], none⟩], 1⟩

/-- C74 applies; on a screen of two rows the highlighted entry is not seen; one of five columns is too narrow. -/
example : drawMenu bare 10 3 threeEntries = .ok [.clear, .at 0 0 true str!"file:a    ", .at 0 1 false str!"abc", .clearRest,
      .at 0 2 true str!"a much too", .clearRest] ∧
    drawMenu bare 10 2 threeEntries = .ok [.clear, .at 0 0 true str!"file:a    ", .at 0 1 false str!"abc", .clearRest] ∧
    drawMenu bare 5 3 threeEntries = .error .overflow := by decide +kernel

/-- C75 applies. -/
example : drawHint bare 10 5 [[(str!"abc", .default)], [(str!"def", .default)]] =
      .ok [.at 7 3 true str!"abc", .at 7 4 true str!"def"] ∧
    drawHint bare 10 5 [] = .error .index ∧ drawHint bare 2 5 [[(str!"abc", .default)]] = .error .overflow := by decide +kernel

/-- a terminal that reads the lines of the example of C51 and types, in this order -/
def exampleApp : R (App (List (Str × Face)) × List Draw) := do
  let t ← Term.new 30 6 [str!"f"]
  let ls := readLines (exampleWires.flatMap fun w => frame (w.encode fragmentTexts))
  App.run fragmentTexts bare JsonText.parse (fun _ => []) { term := t, queue := [] }
    ((ls.take 3).map .line ++ [.key ⟨.char 'j', false, false, false⟩, .treat, .treat, .key ⟨.esc, false, false, false⟩, .treat,
      .treat, .treat])

/-- C73_typed, C76_mirrors and C76_drawn apply: the keys are sent after the request for the file. -/
example : exampleApp.toOption.map (fun x => (x.1.term.connection.sent, x.1.queue.length)) =
    some ([Call.request (.number 0) (.edit str!"f" false),
      Call.request (.number 1) (.keys [⟨false, false, false, .char 'j'⟩]),
      Call.request (.number 2) (.keys [⟨false, false, false, .escape⟩])], 0) := by decide +kernel
example : exampleApp.toOption.map (fun x => x.1.term.connection.state.view) =
    some [⟨str!"f", 1, 1, [⟨[[(str!"a ", .default)]], 1⟩]⟩] := by decide +kernel
example : exampleApp.toOption.bind (fun x => lastView x.2) =
    some (.at 0 0 false str!"-[f][1:1]---------------------\r\na ") := by decide +kernel
/-- C76_status applies. -/
example : exampleApp.toOption.map (fun x => (lastAt 6 x.2).isSome && x.1.term.connection.state.menu.isNone && x.1.queue.isEmpty) =
    some true := by decide +kernel
/-- C73_character applies. -/
example : (do
    let t : Term (List (Str × Face)) ← Term.new 30 6 []
    let t ← t.handleInput bare ⟨.char 'k', true, false, true⟩
    return t.1.connection.sent).toOption = some [Call.request (.number 0) (.keys [⟨true, false, true, .char 'k'⟩])] := by decide +kernel

/-- a terminal on which the menu of the example of C51 is open, and what is done there -/
def exampleOpen (steps : List Tui.Step) : R (App (List (Str × Face)) × List Draw) := do
  let t ← Term.new 30 6 []
  let ls := readLines (exampleWires.flatMap fun w => frame (w.encode fragmentTexts))
  App.run fragmentTexts bare JsonText.parse (fun _ => []) { term := t, queue := [] }
    ((ls.drop 4).map .line ++ [.treat, .treat] ++ steps)

/-- C73_search and C73_lost_refuted apply: `x` then `y` are typed. -/
example : (exampleOpen []).toOption.map (fun a => (a.1.term.connection.state.menu.isSome, a.1.queue.length)) = some (true, 0) ∧
    (exampleOpen (typeSteps fragmentTexts str!"open" str!"file" [] [('x', []), ('y', [])])).toOption.map
      (fun a => a.1.term.connection.sent) =
      some [Call.request (.number 0) (.menu str!"open" str!"x"), Call.request (.number 1) (.menu str!"open" str!"xy")] ∧
    (exampleOpen [.key ⟨.char 'x', false, false, false⟩, .key ⟨.char 'y', false, false, false⟩, .treat, .treat]).toOption.map
      (fun a => a.1.term.connection.sent) =
      some [Call.request (.number 0) (.menu str!"open" str!"x"), Call.request (.number 1) (.menu str!"open" str!"y")] := by
  decide +kernel

/-- C73_left applies: after alt-q a key that comes later is not sent. -/
example : (do
    let t : Term (List (Str × Face)) ← Term.new 30 6 []
    let a ← App.run fragmentTexts bare JsonText.parse (fun _ => []) { term := t, queue := [] }
      [.key ⟨.char 'q', false, true, false⟩, .key ⟨.char 'j', false, false, false⟩, .treat, .treat]
    return (a.1.term.exitPending, a.1.queue.length, a.1.term.connection.sent)).toOption = some (true, 1, []) := by
  decide +kernel

/-- The hypotheses about the drawing of texts are met by the texts of the examples. -/
example : (∀ s, bare.plain (fragmentTexts.faced s .default) = s) ∧ PlainText bare [(str!"one", .default)] := by
  refine ⟨fun s => by simp [bare, fragmentTexts], ⟨?_, rfl, rfl, rfl⟩⟩
  intro c hc
  simp [bare] at hc
  rcases hc with rfl | rfl | rfl <;> decide

end Ced.Props

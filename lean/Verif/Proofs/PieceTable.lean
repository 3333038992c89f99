import Verif.Model.PieceTable
import Verif.Spec.Text

/-! Auxiliary lemmas about the piece table: representation invariant and content. -/

namespace Ced

/-- The buffer selected by the flag of a piece. -/
def bufOf (o a : Bytes) : Bool → Bytes
  | true => o
  | false => a

/-- The bytes a piece denotes. -/
def pieceBytes (o a : Bytes) (p : Piece) : Bytes :=
  ((bufOf o a p.original).drop p.start).take p.length

/-- The bytes a list of pieces denotes. -/
def contentOf (o a : Bytes) (ps : Pieces) : Bytes := ps.flatMap (pieceBytes o a)

/-- The text of the table: the concatenation of the bytes of its pieces in order. -/
def PieceTable.content (t : PieceTable) : Bytes := contentOf t.original t.added t.pieces

/-- Pieces are contiguous from `off` on, non-empty and inside the buffers. -/
def Chain (o a : Bytes) : Nat → Pieces → Prop
  | _, [] => True
  | off, p :: ps =>
    p.offset = off ∧ 0 < p.length ∧ p.start + p.length ≤ (bufOf o a p.original).length ∧
      Chain o a (off + p.length) ps

/-- Total length. -/
def total : Pieces → Nat
  | [] => 0
  | p :: ps => p.length + total ps

variable {o a : Bytes}

theorem Pieces.len_eq_total (ps : Pieces) : ps.len = total ps := by
  have h : ∀ (ps : Pieces) (n : Nat), ps.foldl (fun acc p => acc + p.length) n = n + total ps := by
    intro ps
    induction ps with
    | nil => intro n; simp [total]
    | cons p ps ih => intro n; simp only [List.foldl_cons, total]; rw [ih]; omega
  unfold Pieces.len
  rw [h]; omega

@[simp] theorem total_append (xs ys : Pieces) : total (xs ++ ys) = total xs + total ys := by
  induction xs with
  | nil => simp [total]
  | cons p xs ih => simp only [List.cons_append, total, ih]; omega

@[simp] theorem total_nil : total [] = 0 := rfl
@[simp] theorem total_cons (p : Piece) (ps : Pieces) : total (p :: ps) = p.length + total ps := rfl

@[simp] theorem chain_nil (off : Nat) : Chain o a off [] ↔ True := Iff.rfl

theorem chain_cons (off : Nat) (p : Piece) (ps : Pieces) :
    Chain o a off (p :: ps) ↔ (p.offset = off ∧ 0 < p.length ∧
      p.start + p.length ≤ (bufOf o a p.original).length ∧ Chain o a (off + p.length) ps) :=
  Iff.rfl

theorem chain_append (off : Nat) (xs ys : Pieces) :
    Chain o a off (xs ++ ys) ↔ Chain o a off xs ∧ Chain o a (off + total xs) ys := by
  induction xs generalizing off with
  | nil => simp
  | cons p xs ih =>
    simp only [List.cons_append, chain_cons, ih, total_cons, Nat.add_assoc, and_assoc]

@[simp] theorem contentOf_nil : contentOf o a [] = [] := rfl
@[simp] theorem contentOf_cons (p : Piece) (ps : Pieces) :
    contentOf o a (p :: ps) = pieceBytes o a p ++ contentOf o a ps := by simp [contentOf]
@[simp] theorem contentOf_append (xs ys : Pieces) :
    contentOf o a (xs ++ ys) = contentOf o a xs ++ contentOf o a ys := by simp [contentOf]

theorem pieceBytes_length {p : Piece} (h : p.start + p.length ≤ (bufOf o a p.original).length) :
    (pieceBytes o a p).length = p.length := by
  simp only [pieceBytes, List.length_take, List.length_drop]; omega

theorem chain_content_length {off : Nat} {ps : Pieces} (h : Chain o a off ps) :
    (contentOf o a ps).length = total ps := by
  induction ps generalizing off with
  | nil => simp
  | cons p ps ih =>
    obtain ⟨_, _, h3, h4⟩ := h
    simp [pieceBytes_length h3, ih h4]

theorem chain_offsets {off : Nat} {ps : Pieces} (h : Chain o a off ps) :
    ∀ p ∈ ps, off ≤ p.offset ∧ p.offset + p.length ≤ off + total ps ∧ 0 < p.length := by
  induction ps generalizing off with
  | nil => simp
  | cons q ps ih =>
    obtain ⟨h1, h2, _, h4⟩ := h
    intro p hp
    rcases List.mem_cons.1 hp with rfl | hp
    · simp; omega
    · have := ih h4 p hp; simp; omega

/-- More bytes in the `added` buffer do not matter. -/
theorem chain_extend {off : Nat} {ps : Pieces} (x : Bytes) (h : Chain o a off ps) :
    Chain o (a ++ x) off ps := by
  induction ps generalizing off with
  | nil => trivial
  | cons p ps ih =>
    obtain ⟨h1, h2, h3, h4⟩ := h
    refine ⟨h1, h2, ?_, ih h4⟩
    cases hp : p.original <;> simp_all [bufOf]; omega

theorem pieceBytes_extend {p : Piece} (x : Bytes)
    (h : p.start + p.length ≤ (bufOf o a p.original).length) :
    pieceBytes o (a ++ x) p = pieceBytes o a p := by
  unfold pieceBytes
  cases hp : p.original with
  | true => rfl
  | false =>
    simp only [hp, bufOf] at h ⊢
    rw [List.drop_append_of_le_length (by omega), List.take_append_of_le_length]
    simp; omega

theorem contentOf_extend {off : Nat} {ps : Pieces} (x : Bytes) (h : Chain o a off ps) :
    contentOf o (a ++ x) ps = contentOf o a ps := by
  induction ps generalizing off with
  | nil => rfl
  | cons p ps ih =>
    obtain ⟨_, _, h3, h4⟩ := h
    simp [pieceBytes_extend x h3, ih h4]

/-! ### Locating a piece -/

theorem contains_iff {p : Piece} {x : Nat} :
    p.contains x = true ↔ p.offset ≤ x ∧ x < p.offset + p.length := by
  simp [Piece.contains]

theorem getNode_none {ps : Pieces} {off x : Nat} (h : Chain o a off ps) (hx : off + total ps ≤ x) :
    ps.getNode x = none := by
  simp only [Pieces.getNode, List.find?_eq_none]
  intro p hp
  have := chain_offsets h p hp
  rw [contains_iff]; omega

theorem getNode_some {ps : Pieces} {off x : Nat} (h : Chain o a off ps) (h1 : off ≤ x)
    (hx : x < off + total ps) :
    ∃ pre p post, ps = pre ++ p :: post ∧ ps.getNode x = some p ∧ p.contains x = true ∧
      p.offset = off + total pre := by
  induction ps generalizing off with
  | nil => simp at hx; omega
  | cons q ps ih =>
    obtain ⟨hq1, hq2, hq3, hq4⟩ := h
    by_cases hc : q.contains x = true
    · exact ⟨[], q, ps, rfl, by simp [Pieces.getNode, List.find?, hc], hc, by simp [hq1]⟩
    · have hc' := hc
      rw [contains_iff] at hc'
      simp only [total_cons] at hx
      obtain ⟨pre, p, post, e1, e2, e3, e4⟩ := ih hq4 (by omega) (by omega)
      refine ⟨q :: pre, p, post, by simp [e1], ?_, e3, by simp [e4]; omega⟩
      simp only [Pieces.getNode, List.find?, Bool.not_eq_true] at hc e2 ⊢
      simp [hc, e2]

/-! ### Operations of the ordered set on lists split around a position -/

theorem pieces_insert_split {pre post : Pieces} {p : Piece}
    (h1 : ∀ q ∈ pre, q.offset < p.offset) (h2 : ∀ q ∈ post, p.offset ≤ q.offset) :
    Pieces.insert p (pre ++ post) = pre ++ p :: post := by
  induction pre with
  | nil =>
    cases post with
    | nil => rfl
    | cons q qs => simp [Pieces.insert, h2 q (by simp)]
  | cons q qs ih =>
    have := h1 q (by simp)
    simp only [List.cons_append, Pieces.insert]
    rw [if_neg (by omega), ih (fun r hr => h1 r (by simp [hr]))]

theorem pieces_insert_last {pre : Pieces} {p : Piece} (h1 : ∀ q ∈ pre, q.offset < p.offset) :
    Pieces.insert p pre = pre ++ [p] := by
  have := pieces_insert_split (post := []) h1 (by simp)
  simpa using this

/-- shift of one piece -/
def Piece.up (v : Nat) (p : Piece) : Piece := { p with offset := p.offset + v }
/-- shift of one piece -/
def Piece.down (v : Nat) (p : Piece) : Piece := { p with offset := p.offset - v }

theorem map_if_false {α} {f : α → α} {c : α → Prop} [DecidablePred c] {l : List α}
    (h : ∀ x ∈ l, ¬ c x) : l.map (fun x => if c x then f x else x) = l := by
  induction l with
  | nil => rfl
  | cons x xs ih => simp [h x (by simp), ih (fun y hy => h y (by simp [hy]))]

theorem map_if_true {α} {f : α → α} {c : α → Prop} [DecidablePred c] {l : List α}
    (h : ∀ x ∈ l, c x) : l.map (fun x => if c x then f x else x) = l.map f := by
  induction l with
  | nil => rfl
  | cons x xs ih => simp [h x (by simp)]; exact fun y hy hc => absurd (h y (by simp [hy])) hc

theorem shiftUp_split {pre post : Pieces} {off v : Nat} (h1 : ∀ q ∈ pre, q.offset ≤ off)
    (h2 : ∀ q ∈ post, off < q.offset) :
    Pieces.shiftUp off v (pre ++ post) = pre ++ post.map (Piece.up v) := by
  unfold Pieces.shiftUp
  rw [List.map_append, map_if_false (fun x hx => by have := h1 x hx; omega),
    map_if_true (fun x hx => h2 x hx)]
  rfl

theorem shiftDown_split {pre post : Pieces} {off v : Nat} (h1 : ∀ q ∈ pre, q.offset ≤ off)
    (h2 : ∀ q ∈ post, off < q.offset) :
    Pieces.shiftDown off v (pre ++ post) = pre ++ post.map (Piece.down v) := by
  unfold Pieces.shiftDown
  rw [List.map_append, map_if_false (fun x hx => by have := h1 x hx; omega),
    map_if_true (fun x hx => h2 x hx)]
  rfl

theorem filter_true {α} {c : α → Bool} {l : List α} (h : ∀ x ∈ l, c x = true) : l.filter c = l := by
  simpa [List.filter_eq_self] using h

theorem removeAt_split {pre post : Pieces} {p : Piece} (h1 : ∀ q ∈ pre, q.offset ≠ p.offset)
    (h2 : ∀ q ∈ post, q.offset ≠ p.offset) :
    Pieces.removeAt p.offset (pre ++ p :: post) = pre ++ post := by
  unfold Pieces.removeAt
  rw [List.filter_append, List.filter_cons]
  simp only [ne_eq, not_true_eq_false, decide_false, Bool.false_eq_true, if_false]
  rw [filter_true (by simpa using h1), filter_true (by simpa using h2)]

theorem chain_up {off v : Nat} {ps : Pieces} (h : Chain o a off ps) :
    Chain o a (off + v) (ps.map (Piece.up v)) := by
  induction ps generalizing off with
  | nil => trivial
  | cons p ps ih =>
    obtain ⟨h1, h2, h3, h4⟩ := h
    refine ⟨by simp [Piece.up, h1], h2, h3, ?_⟩
    have := ih h4
    rwa [Nat.add_right_comm] at this

theorem chain_down {off v : Nat} {ps : Pieces} (hv : v ≤ off) (h : Chain o a off ps) :
    Chain o a (off - v) (ps.map (Piece.down v)) := by
  induction ps generalizing off with
  | nil => trivial
  | cons p ps ih =>
    obtain ⟨h1, h2, h3, h4⟩ := h
    refine ⟨by simp [Piece.down, h1], h2, h3, ?_⟩
    have := ih (by omega) h4
    have e : off - v + (Piece.down v p).length = off + p.length - v := by simp [Piece.down]; omega
    rw [e]; exact this

@[simp] theorem contentOf_up {v : Nat} {ps : Pieces} :
    contentOf o a (ps.map (Piece.up v)) = contentOf o a ps := by
  induction ps with
  | nil => rfl
  | cons p ps ih => simp [ih]; rfl

@[simp] theorem contentOf_down {v : Nat} {ps : Pieces} :
    contentOf o a (ps.map (Piece.down v)) = contentOf o a ps := by
  induction ps with
  | nil => rfl
  | cons p ps ih => simp [ih]; rfl

/-! ### repack -/

theorem repack_chain {off : Nat} {ps : Pieces} (h : Chain o a off ps) :
    Chain o a off ps.repack ∧ contentOf o a ps.repack = contentOf o a ps := by
  induction ps generalizing off with
  | nil => exact ⟨trivial, rfl⟩
  | cons p ps ih =>
    obtain ⟨h1, h2, h3, h4⟩ := h
    obtain ⟨c1, c2⟩ := ih h4
    simp only [Pieces.repack]
    cases hr : Pieces.repack ps with
    | nil =>
      rw [hr] at c1 c2
      refine ⟨⟨h1, h2, h3, trivial⟩, ?_⟩
      simp [← c2]
    | cons q qs =>
      rw [hr] at c1 c2
      simp only
      split
      · rename_i hc
        simp only [Piece.consecutive, Bool.and_eq_true, beq_iff_eq, Piece.stop] at hc
        obtain ⟨⟨hc1, hc2⟩, hc3⟩ := hc
        obtain ⟨g1, g2, g3, g4⟩ := c1
        refine ⟨⟨h1, by simp [Piece.merged]; omega, ?_, ?_⟩, ?_⟩
        · simp only [Piece.merged]; rw [hc2]; omega
        · have : off + (p.merged q).length = off + p.length + q.length := by simp [Piece.merged]; omega
          rw [this]; exact g4
        · rw [contentOf_cons, contentOf_cons, ← c2, contentOf_cons]
          rw [← List.append_assoc]
          congr 1
          simp only [pieceBytes, Piece.merged, ← hc3]
          rw [List.take_add, List.drop_drop, hc2]
      · refine ⟨⟨h1, h2, h3, c1⟩, ?_⟩
        simp [← c2]

end Ced

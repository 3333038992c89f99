import Verif.Proofs.Utf8
import Verif.Proofs.Calm
import Batteries.Data.List.Basic

/-! Auxiliary lemmas: lossy decoding of any bytes keeps the ASCII bytes, hence the lines. -/

namespace Ced
open Spec

/-- `t` has the ASCII bytes of `s`, with other bytes in between where `s` has some -/
inductive Keeps : Bytes → Bytes → Prop
  | nil : Keeps [] []
  | ascii {b : UInt8} {s t : Bytes} (hb : b.toNat < 128) (h : Keeps s t) : Keeps (b :: s) (b :: t)
  | other {x y s t : Bytes} (hx : x ≠ []) (hy : y ≠ []) (ax : ∀ b ∈ x, 128 ≤ b.toNat) (ay : ∀ b ∈ y, 128 ≤ b.toNat)
      (h : Keeps s t) : Keeps (x ++ s) (y ++ t)

theorem Keeps.append {s t s' t' : Bytes} (h : Keeps s t) (h' : Keeps s' t') : Keeps (s ++ s') (t ++ t') := by
  induction h with
  | nil => exact h'
  | ascii hb _ ih => exact .ascii hb ih
  | other hx hy ax ay _ ih =>
    rw [List.append_assoc, List.append_assoc]
    exact .other hx hy ax ay ih

theorem Keeps.same {s t : Bytes} (h : Keeps s t) (ha : Ascii s) : t = s := by
  induction h with
  | nil => rfl
  | ascii _ _ ih => rw [ih fun b hb => ha b (by simp [hb])]
  | @other x y s t hx hy ax ay _ ih =>
    cases x with
    | nil => exact absurd rfl hx
    | cons b x =>
      have h1 := ax b (by simp)
      have h2 := ha b (by simp)
      have : b.toNat < 128 := h2
      omega

theorem Keeps.mem {s t : Bytes} (h : Keeps s t) {b : UInt8} (hb : b.toNat < 128) : b ∈ t ↔ b ∈ s := by
  induction h with
  | nil => exact Iff.rfl
  | ascii _ _ ih => simp [ih]
  | @other x y s t hx hy ax ay _ ih =>
    have h1 : b ∉ x := fun h => by have := ax b h; omega
    have h2 : b ∉ y := fun h => by have := ay b h; omega
    simp [h1, h2, ih]

theorem lines_other {x s : Bytes} (hx : x ≠ []) (ax : ∀ b ∈ x, b ≠ NL) :
    Spec.lines (x ++ s) = match Spec.lines s with | [] => [x] | l :: ls => (x ++ l) :: ls := by
  induction x with
  | nil => exact absurd rfl hx
  | cons b x ih =>
    rw [List.cons_append, Spec.lines, if_neg (ax b (by simp))]
    by_cases hx' : x = []
    · subst hx'
      rw [List.nil_append]
      cases Spec.lines s <;> rfl
    · rw [ih hx' (fun c hc => ax c (by simp [hc]))]
      cases Spec.lines s <;> rfl

/-- line by line -/
theorem Keeps.lines {s t : Bytes} (h : Keeps s t) : List.Forall₂ Keeps (Spec.lines s) (Spec.lines t) := by
  have step : ∀ {x y s t : Bytes}, x ≠ [] → y ≠ [] → (∀ b ∈ x, b ≠ NL) → (∀ b ∈ y, b ≠ NL) →
      (∀ {l m}, Keeps l m → Keeps (x ++ l) (y ++ m)) → List.Forall₂ Keeps (Spec.lines s) (Spec.lines t) →
      List.Forall₂ Keeps (Spec.lines (x ++ s)) (Spec.lines (y ++ t)) := by
    intro x y s t hx hy ax ay hk ih
    rw [lines_other hx ax, lines_other hy ay]
    generalize Spec.lines s = ls at ih ⊢
    generalize Spec.lines t = lt at ih ⊢
    cases ih with
    | nil =>
      have := hk .nil
      rw [List.append_nil, List.append_nil] at this
      exact .cons this .nil
    | cons h1 h2 => exact .cons (hk h1) h2
  induction h with
  | nil => exact .nil
  | @ascii b s t hb h ih =>
    by_cases hn : b = NL
    · subst hn
      rw [Spec.lines, if_pos rfl, Spec.lines, if_pos rfl]
      exact .cons .nil ih
    · exact step (x := [b]) (y := [b]) (by simp) (by simp) (by simpa using hn) (by simpa using hn) (fun h => .ascii hb h) ih
  | other hx hy ax ay h ih =>
    refine step hx hy (fun b hb e => ?_) (fun b hb e => ?_) (fun h => .other hx hy ax ay h) ih
    · have := ax b hb; rw [e] at this; exact absurd this (by decide)
    · have := ay b hb; rw [e] at this; exact absurd this (by decide)

theorem cont_big {b : UInt8} (h : isCont b = true) : 128 ≤ b.toNat := by
  unfold isCont at h
  simp at h
  omega

/-- the head of a byte string that does not begin with an ASCII byte -/
theorem head_big {b : UInt8} {bs : Bytes} (hb : ¬ b.toNat < 128) :
    0 < (utf8Head (b :: bs)).2 ∧ ∀ x ∈ (b :: bs).take (utf8Head (b :: bs)).2, 128 ≤ x.toNat := by
  have one : ∀ x ∈ (b :: bs).take 1, 128 ≤ x.toNat := by
    intro x hx
    simp only [List.take_succ_cons, List.take_zero, List.mem_singleton] at hx
    subst hx; omega
  have two : 128 ≤ (bs[0]?.getD 0).toNat → ∀ x ∈ (b :: bs).take 2, 128 ≤ x.toNat := by
    intro h x hx
    cases bs with
    | nil => exact absurd h (by decide)
    | cons c bs =>
      simp only [List.take_succ_cons, List.take_zero, List.mem_cons, List.not_mem_nil, or_false] at hx
      rcases hx with rfl | rfl
      · omega
      · exact h
  have three : 128 ≤ (bs[0]?.getD 0).toNat → 128 ≤ (bs[1]?.getD 0).toNat → ∀ x ∈ (b :: bs).take 3, 128 ≤ x.toNat := by
    intro h h' x hx
    cases bs with
    | nil => exact absurd h (by decide)
    | cons c bs =>
      cases bs with
      | nil => exact absurd h' (by simp)
      | cons d bs =>
        simp only [List.take_succ_cons, List.take_zero, List.mem_cons, List.not_mem_nil, or_false] at hx
        rcases hx with rfl | rfl | rfl
        · omega
        · exact h
        · exact h'
  have four : 128 ≤ (bs[0]?.getD 0).toNat → 128 ≤ (bs[1]?.getD 0).toNat → 128 ≤ (bs[2]?.getD 0).toNat →
      ∀ x ∈ (b :: bs).take 4, 128 ≤ x.toNat := by
    intro h h' h'' x hx
    cases bs with
    | nil => exact absurd h (by decide)
    | cons c bs =>
      cases bs with
      | nil => exact absurd h' (by simp)
      | cons d bs =>
        cases bs with
        | nil => exact absurd h'' (by simp)
        | cons e bs =>
          simp only [List.take_succ_cons, List.take_zero, List.mem_cons, List.not_mem_nil, or_false] at hx
          rcases hx with rfl | rfl | rfl | rfl
          · omega
          · exact h
          · exact h'
          · exact h''
  unfold utf8Head
  simp only
  rw [if_neg hb]
  split
  · split
    · rename_i h
      exact ⟨by decide, two (cont_big h)⟩
    · exact ⟨by decide, one⟩
  · split
    · split
      · rename_i h
        have h1 : 128 ≤ (bs[0]?.getD 0).toNat := by omega
        split
        · rename_i h'
          exact ⟨by decide, three h1 (cont_big h')⟩
        · exact ⟨by decide, two h1⟩
      · exact ⟨by decide, one⟩
    · split
      · split
        · rename_i h
          have h1 : 128 ≤ (bs[0]?.getD 0).toNat := by omega
          split
          · rename_i h'
            split
            · rename_i h''
              exact ⟨by decide, four h1 (cont_big h') (cont_big h'')⟩
            · exact ⟨by decide, three h1 (cont_big h')⟩
          · exact ⟨by decide, two h1⟩
        · exact ⟨by decide, one⟩
      · exact ⟨by decide, one⟩

theorem lossyAux_keeps : ∀ {fuel : Nat} {s : Bytes}, s.length ≤ fuel → Keeps s (utf8LossyAux fuel s)
  | 0, s, h => by
    cases s with
    | nil => exact .nil
    | cons => simp at h
  | fuel + 1, [], _ => .nil
  | fuel + 1, b :: bs, h => by
    rw [utf8LossyAux]
    by_cases hb : b.toNat < 128
    · have hh : utf8Head (b :: bs) = (true, 1) := by
        unfold utf8Head
        simp only
        rw [if_pos hb]
      rw [hh]
      exact .ascii hb (lossyAux_keeps (by simpa using h))
    · obtain ⟨h1, h2⟩ := head_big (bs := bs) hb
      generalize utf8Head (b :: bs) = hd at h1 h2 ⊢
      have hne : (b :: bs).take hd.2 ≠ [] := by
        cases hd' : hd.2 with
        | zero => omega
        | succ n => simp
      have ih : Keeps ((b :: bs).drop hd.2) (utf8LossyAux fuel ((b :: bs).drop hd.2)) :=
        lossyAux_keeps (by simp only [List.length_drop]; simp only [List.length_cons] at h ⊢; omega)
      have := Keeps.other (x := (b :: bs).take hd.2) (y := if hd.1 = true then (b :: bs).take hd.2 else replacementChar) hne
        (by split <;> first | exact hne | decide) h2 (by split <;> first | exact h2 | decide) ih
      rwa [List.take_append_drop] at this

theorem lossy_keeps (s : Bytes) : Keeps s (utf8Lossy s) := lossyAux_keeps (Nat.le_refl _)

/-- the text of a buffer, of whatever bytes -/
theorem PieceTable.text_keeps {t : PieceTable} (hw : t.WF) : ∃ x, t.text = .ok x ∧ Keeps t.content x := by
  have key : ∀ (ps : Pieces) (off : Nat), Chain t.original t.added off ps →
      ∃ xs : List Bytes, (ps.mapM (fun p => do
        let bs ← sliceR (t.buffer p) p.start p.stop
        pure (utf8Lossy bs)) : R (List Bytes)) = .ok xs ∧ Keeps (ps.flatMap (pieceBytes t.original t.added)) xs.flatten := by
    intro ps
    induction ps with
    | nil => intro off _; exact ⟨[], rfl, .nil⟩
    | cons q qs ih =>
      intro off hch
      obtain ⟨h1, h2, h3, h4⟩ := hch
      have hs := sliceR_piece h3 (Nat.zero_le q.length) (Nat.le_refl _)
      simp only [Nat.add_zero, List.drop_zero] at hs
      rw [List.take_of_length_le (by rw [pieceBytes_length h3]; omega)] at hs
      obtain ⟨xs, e, hk⟩ := ih _ h4
      refine ⟨utf8Lossy (pieceBytes t.original t.added q) :: xs, ?_, ?_⟩
      · rw [List.mapM_cons]
        simp only [Piece.stop, hs, except_bind_ok, except_pure]
        simp only [Piece.stop, except_pure] at e
        rw [e]
        rfl
      · rw [List.flatMap_cons, List.flatten_cons]
        exact (lossy_keeps _).append hk
  obtain ⟨xs, e, hk⟩ := key t.pieces 0 hw.pieces
  refine ⟨xs.flatten, ?_, hk⟩
  unfold text
  rw [e]
  rfl

end Ced

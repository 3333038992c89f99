import Verif.Spec.Positions
import Verif.Props.Motion

/-! # Properties of the iterator over positions: C84 -/

namespace Ced.Props
open Spec PieceTable Navigator
variable {t : PieceTable} {seg : Segmentation} {o n c : Nat}

theorem pos_at (hw : t.WF) (hn : t.NewlinesOk) (hseg : IsSegmentation seg) (ha : Ascii t.content)
    (h : At t.content o n c) (ho : o < t.content.length) :
    Navigator.pos seg t ⟨⟨n, c⟩, c⟩ = .ok ⟨o, ⟨n, c⟩, some [t.content[o]]⟩ := by
  have hat := h
  obtain ⟨pre, line, suf, hl, h1, h2, h3⟩ := h
  unfold Navigator.pos
  simp only [lineBytes_at hw hn hl, except_bind_ok]
  rw [seg_line hseg hl ha]
  simp only [List.length_map]
  rw [show min (line.length + 1) c = c by omega, coordToOffset_ascii hw hn hseg ha hat]
  simp only [except_bind_ok]
  rw [charAt_ascii hw hn hseg ha ho hat]
  rfl

theorem isAtEnd_at (hw : t.WF) (hn : t.NewlinesOk) (hseg : IsSegmentation seg) (ha : Ascii t.content)
    (h : At t.content o n c) (ho : o < t.content.length) (tc : Nat) :
    Navigator.isAtEnd seg t ⟨⟨n, c⟩, tc⟩ = .ok (decide (o + 1 = t.content.length)) := by
  have hne : t.content ≠ [] := by intro e; rw [e] at ho; simp at ho
  obtain ⟨nm, cm, hm⟩ := at_exists (s := t.content) (o := t.content.length - 1) (by omega)
  unfold Navigator.isAtEnd
  rw [maxCoord_ascii hw hn hseg ha hne hm]
  simp only [except_bind_ok]
  refine congrArg Except.ok ?_
  rw [decide_eq_decide]
  constructor
  · intro e
    simp only [Coords.mk.injEq] at e
    obtain ⟨rfl, rfl⟩ := e
    have h1 := coordToOffset_ascii (seg := seg) hw hn hseg ha h
    rw [coordToOffset_ascii hw hn hseg ha hm] at h1
    simp at h1
    omega
  · intro e
    have : t.content.length - 1 = o := by omega
    rw [this] at hm
    obtain ⟨rfl, rfl⟩ := at_unique h hm
    rfl

/-- one call of an iterator that was called before -/
theorem next_started (hw : t.WF) (hn : t.NewlinesOk) (hseg : IsSegmentation seg) (ha : Ascii t.content)
    (h : At t.content o n c) (ho : o < t.content.length) (x : Nat) :
    ∃ n' c' o', o' = min (o + 1) (t.content.length - 1) ∧ At t.content o' n' c' ∧
      PositionIterator.next seg t ⟨⟨⟨n, c⟩, c⟩, x, true⟩ = .ok (⟨⟨⟨n', c'⟩, c'⟩, x, true⟩,
        if o' + 1 = t.content.length then some ⟨o', ⟨n', c'⟩, (t.content[o']?).map ([·])⟩ else none) := by
  have key : ∃ n' c' o', o' = min (o + 1) (t.content.length - 1) ∧ At t.content o' n' c' ∧
      Navigator.next seg t ⟨⟨n, c⟩, c⟩ = .ok ⟨⟨n', c'⟩, c'⟩ := by
    by_cases h1 : o + 1 < t.content.length
    · obtain ⟨n', c', h2, h3⟩ := next_ascii hw hn hseg ha h h1 c
      exact ⟨n', c', o + 1, by omega, h2, h3⟩
    · exact ⟨n, c, o, by omega, h, next_end hw hn hseg ha h (by omega) c⟩
  obtain ⟨n', c', o', e, h2, h3⟩ := key
  refine ⟨n', c', o', e, h2, ?_⟩
  unfold PositionIterator.next
  simp only [Bool.not_true, Bool.false_eq_true, if_false, h3, except_bind_ok]
  rw [isAtEnd_at hw hn hseg ha h2 (by omega)]
  simp only [except_bind_ok]
  by_cases he : o' + 1 = t.content.length
  · rw [if_pos (by simpa using he), if_pos he, pos_at hw hn hseg ha h2 (by omega), List.getElem?_eq_getElem (by omega)]
    rfl
  · rw [if_neg (by simpa using he), if_neg he]
    rfl

theorem calls_started (hw : t.WF) (hn : t.NewlinesOk) (hseg : IsSegmentation seg) (ha : Ascii t.content) (m : Nat) :
    ∀ {o n c : Nat}, At t.content o n c → o < t.content.length → ∀ x,
      ∃ out, calls seg t ⟨⟨⟨n, c⟩, c⟩, x, true⟩ m = .ok out ∧ out.length = m ∧
        ∀ k p, out[k]? = some p →
          if o + k + 2 < t.content.length then p = none else ∃ q, p = some q ∧ IsPosition t.content (t.content.length - 1) q := by
  induction m with
  | zero => intro o n c _ _ x; exact ⟨[], rfl, rfl, by simp⟩
  | succ m ih =>
    intro o n c h ho x
    obtain ⟨n', c', o', e, h2, h3⟩ := next_started hw hn hseg ha h ho x
    obtain ⟨out, h4, h5, h6⟩ := ih h2 (by omega) x
    refine ⟨(if o' + 1 = t.content.length then some ⟨o', ⟨n', c'⟩, (t.content[o']?).map ([·])⟩ else none) :: out, ?_,
      by simp [h5], ?_⟩
    · rw [calls, h3]
      simp only [except_bind_ok]
      rw [h4]
      rfl
    · intro k p hk
      cases k with
      | zero =>
        simp only [List.getElem?_cons_zero, Option.some.injEq] at hk
        subst hk
        by_cases hlt : o + 0 + 2 < t.content.length
        · rw [if_pos hlt, if_neg (by omega)]
        · rw [if_neg hlt, if_pos (by omega)]
          refine ⟨_, rfl, by show o' = _; omega, ?_, ?_⟩
          · have : t.content.length - 1 = o' := by omega
            rw [this]; exact h2
          · have : t.content.length - 1 = o' := by omega
            rw [this]
            exact ⟨t.content[o'], List.getElem?_eq_getElem (by omega), by
              show (t.content[o']?).map ([·]) = _; rw [List.getElem?_eq_getElem (by omega)]; rfl⟩
      | succ k =>
        rw [List.getElem?_cons_succ] at hk
        have := h6 k p hk
        by_cases hlt : o + (k + 1) + 2 < t.content.length
        · rw [if_pos hlt]; rwa [if_pos (by omega)] at this
        · rw [if_neg hlt]; rwa [if_neg (by omega)] at this

/-- C84: on a text of single-byte characters, the first call gives the first position; a later call gives nothing as long
as the end of the text is not reached, and then the last position, each time. -/
theorem C84_calls (h : SteadyHistory t) {s : Bytes} (hs : Shows t s) (ha : Ascii s) (hne : s ≠ [])
    (hseg : IsSegmentation seg) : ∃ it, PositionIterator.ofTable seg t = .ok it ∧
      ∀ m, ∃ out, calls seg t it m = .ok out ∧ out.length = m ∧ ∀ k p, out[k]? = some p →
        (k = 0 → ∃ q, p = some q ∧ IsPosition s 0 q) ∧
        (1 ≤ k ∧ k + 1 < s.length → p = none) ∧
        (1 ≤ k ∧ s.length ≤ k + 1 → ∃ q, p = some q ∧ IsPosition s (s.length - 1) q) := by
  have hw := (reachable_ready (steady_any h)).wf
  have hn := steady_newlines h
  have hc := (shows_iff hw).1 hs
  subst hc
  have hpos := List.length_pos_iff.2 hne
  obtain ⟨n0, c0, hat⟩ := at_exists hpos
  have h11 : n0 = 1 ∧ c0 = 1 := by
    obtain ⟨pre, line, suf, hl, h1, h2, h3⟩ := hat
    have hp : pre = [] := List.length_eq_zero_iff.1 (by omega)
    subst hp
    have := hl.number
    simp at this h3
    omega
  obtain ⟨rfl, rfl⟩ := h11
  refine ⟨⟨⟨⟨1, 1⟩, 1⟩, 0, false⟩, ?_, ?_⟩
  · unfold PositionIterator.ofTable Navigator.navigate Navigator.new Navigator.fromPosition Navigator.BEGIN
    simp only [coordToOffset_ascii hw hn hseg ha hat]
    rfl
  · intro m
    cases m with
    | zero => exact ⟨[], rfl, rfl, by simp⟩
    | succ m =>
      obtain ⟨out, h4, h5, h6⟩ := calls_started hw hn hseg ha m hat hpos 0
      have h1 : PositionIterator.next seg t ⟨⟨⟨1, 1⟩, 1⟩, 0, false⟩ =
          .ok (⟨⟨⟨1, 1⟩, 1⟩, 0, true⟩, some ⟨0, ⟨1, 1⟩, some [t.content[0]]⟩) := by
        unfold PositionIterator.next PositionIterator.pos
        simp only [Bool.not_false, if_true, offsetToCoord_ascii hw hn hseg ha hpos hat, charAtOffset_ascii hw hn hseg ha hpos]
        rfl
      refine ⟨some ⟨0, ⟨1, 1⟩, some [t.content[0]]⟩ :: out, ?_, by simp [h5], ?_⟩
      · rw [calls, h1]
        simp only [except_bind_ok]
        rw [h4]
        rfl
      · intro k p hk
        cases k with
        | zero =>
          simp only [List.getElem?_cons_zero, Option.some.injEq] at hk
          subst hk
          exact ⟨fun _ => ⟨_, rfl, rfl, hat, _, List.getElem?_eq_getElem hpos, rfl⟩, by omega, by omega⟩
        | succ k =>
          rw [List.getElem?_cons_succ] at hk
          have := h6 k p hk
          refine ⟨by omega, fun hlt => ?_, fun hge => ?_⟩
          · rwa [if_pos (by omega)] at this
          · rwa [if_neg (by omega)] at this

/-- C84: so going through the positions of a text of three characters or more stops after the first one, and going
through those of a shorter one never stops: no call gives nothing. -/
theorem C84_stops (h : SteadyHistory t) {s : Bytes} (hs : Shows t s) (ha : Ascii s) (hne : s ≠ [])
    (hseg : IsSegmentation seg) : ∃ it, PositionIterator.ofTable seg t = .ok it ∧
      (3 ≤ s.length → ∃ q, calls seg t it 2 = .ok [some q, none] ∧ IsPosition s 0 q) ∧
      (s.length ≤ 2 → ∀ m out, calls seg t it m = .ok out → none ∉ out) := by
  obtain ⟨it, h1, h2⟩ := C84_calls h hs ha hne hseg
  refine ⟨it, h1, fun h3 => ?_, fun h3 m out ho hnone => ?_⟩
  · obtain ⟨out, e, hl, hk⟩ := h2 2
    match out, hl with
    | [a, b], _ =>
      obtain ⟨q, rfl, hq⟩ := (hk 0 a rfl).1 rfl
      have := (hk 1 b rfl).2.1 ⟨by omega, by omega⟩
      subst this
      exact ⟨q, e, hq⟩
  · obtain ⟨out', e, hl, hk⟩ := h2 m
    rw [ho] at e
    cases e
    obtain ⟨k, hk'⟩ := List.getElem?_of_mem hnone
    have := hk k none hk'
    cases k with
    | zero => obtain ⟨q, hq, _⟩ := this.1 rfl; cases hq
    | succ k => obtain ⟨q, hq, _⟩ := this.2.2 ⟨by omega, by omega⟩; cases hq

/-- C84_calls and C84_stops apply: a text of three lines, edited; five calls on a text of four bytes. -/
example : ∃ it, PositionIterator.ofTable bytewise TA = .ok it ∧ ∃ q, calls bytewise TA it 2 = .ok [some q, none] ∧
    IsPosition textA 0 q := by
  obtain ⟨it, h1, h2, _⟩ := C84_stops (forward_steady TA_forward) TA_shows textA_ascii (by decide) bytewise_ok
  exact ⟨it, h1, h2 (by decide)⟩
example : (do
    let it ← PositionIterator.ofTable bytewise (.withText [97, 10, 98, 10])
    calls bytewise (.withText [97, 10, 98, 10]) it 5) =
      .ok [some ⟨0, ⟨1, 1⟩, some [97]⟩, none, none, some ⟨3, ⟨2, 2⟩, some [10]⟩, some ⟨3, ⟨2, 2⟩, some [10]⟩] := by decide

end Ced.Props

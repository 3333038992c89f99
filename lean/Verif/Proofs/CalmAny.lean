import Verif.Proofs.CalmRun
import Verif.Spec.AnyChars
import Verif.Props.Showing
import Verif.Props.Behind

/-! Auxiliary lemmas: sessions in texts of any characters (C95). -/

namespace Ced
open Spec Props PieceTable

/-- a line of a text ended by a newline is a line of every longer text -/
theorem lineAt_append {s pre line suf x : Bytes} {n : Nat} (he : EndsWithNewline s) (hl : LineAt s n pre line suf) :
    LineAt (s ++ x) n pre line (suf ++ x) := by
  obtain ⟨y, rfl⟩ := ends_suf he hl
  refine ⟨?_, hl.number, hl.starts, hl.noNewline, .inr rfl, ?_⟩
  · rw [hl.split]; simp
  · simp

theorem drawable_lt {seg : Segmentation} {s : Bytes} (he : EndsWithNewline s) {b : Nat} (h : Drawable seg s b) : b < s.length := by
  obtain ⟨n, pre, line, suf, hl, h1, h2, _⟩ := h
  obtain ⟨y, rfl⟩ := ends_suf he hl
  have := hl.length
  simp at this
  omega

theorem drawable_append {seg : Segmentation} {s x : Bytes} (he : EndsWithNewline s) (hx : x ≠ []) {b : Nat}
    (h : Drawable seg s b) : Drawable seg (s ++ x) b := by
  obtain ⟨n, pre, line, suf, hl, h1, h2, h3⟩ := h
  refine ⟨n, pre, line, suf ++ x, lineAt_append he hl, h1, h2, ?_⟩
  rcases h3 with h3 | h3 | ⟨h3, _⟩
  · exact .inl h3
  · exact .inr (.inl h3)
  · refine .inr (.inr ⟨h3, .inl ?_⟩)
    obtain ⟨y, rfl⟩ := ends_suf he hl
    intro e
    have := congrArg List.length e
    simp at this
    exact hx this.2

theorem canShow_of_drawable {seg : Segmentation} (hseg : IsSegmentation seg) {s : Bytes} (he : EndsWithNewline s) {a b : Nat}
    (hab : a ≤ b) (h : Drawable seg s b) : CanShow seg s a b := by
  rw [C88_where hseg he hab (drawable_lt he h)]
  obtain ⟨n, pre, line, suf, hl, h1, h2, h3⟩ := h
  rcases h3 with h3 | h3 | ⟨h3, h4⟩
  · exact .inr ⟨n, pre, line, suf, hl, h1, h2, .inl h3⟩
  · exact .inr ⟨n, pre, line, suf, hl, h1, h2, .inr (.inl h3)⟩
  · by_cases h5 : suf = [NL]
    · left
      rcases h4 with h4 | h4
      · exact absurd h5 h4
      · have := hl.length
        rw [h5] at this
        simp at this
        omega
    · exact .inr ⟨n, pre, line, suf, hl, h1, h2, .inr (.inr ⟨h3, h5⟩)⟩

/-- the start of a text -/
theorem drawable_zero {seg : Segmentation} (hseg : IsSegmentation seg) {s : Bytes} (he : EndsWithNewline s) : Drawable seg s 0 := by
  have hp := List.length_pos_iff.2 (ends_ne he)
  obtain ⟨n, pre, line, suf, hl, h2, h3, _⟩ := exists_lineAt hp
  refine ⟨n, pre, line, suf, hl, h2, h3, .inr ?_⟩
  rw [Nat.zero_sub]
  rcases Nat.eq_zero_or_pos (seg line).length with h | h
  · refine .inr ⟨h.symm, .inr ?_⟩
    have hs := List.length_eq_zero_iff.1 h
    have hf := hseg.flatten line
    rw [hs] at hf
    have hf : line = [] := by simpa using hf.symm
    rw [hf]
    simp only [List.length_nil]
    omega
  · exact .inl h

/-- the ends are computed when the selection can be shown -/
theorem ends_of_drawable {seg : Segmentation} (hseg : IsSegmentation seg) {t : PieceTable} (ht : ForwardHistory t)
    (he : EndsWithNewline t.content) {q : Selection} (h : Drawable seg t.content (max q.anchor q.cursor)) :
    ∃ rs, (do let (a, b) ← selectionEnds seg t q; selectedRanges a b : R _) = .ok rs := by
  have hst := forward_steady ht
  exact (ends_iff (reachable_ready (steady_any hst)).wf (steady_newlines hst) hseg q).2
    (canShow_of_drawable hseg he (by omega) h)

/-- sessions in any characters, the selections placed -/
def anyKind (seg : Segmentation) (hseg : IsSegmentation seg) : Kind where
  seg g := g = seg
  text _ := True
  name _ := True
  sel := Placed seg
  lit _ := trivial
  app _ _ := trivial
  enc _ := trivial
  nl := trivial
  joined _ _ := trivial
  fresh := by
    intro s _ he
    have := List.length_pos_iff.2 (ends_ne he)
    exact ⟨this, this, drawable_zero hseg he⟩
  longer := by
    intro s x q _ he _ hx ⟨h1, h2, h3⟩
    refine ⟨?_, ?_, drawable_append he (ends_ne hx) h3⟩ <;> rw [List.length_append] <;> omega
  draws := by
    intro g t q hg ht _ he h
    subst hg
    exact ends_of_drawable hseg ht he h.2.2

/-- sessions in any characters without motions -/
def stillKind : Kind where
  seg := IsSegmentation
  text _ := True
  name _ := True
  sel _ q := q.anchor = 0 ∧ q.cursor = 0
  lit _ := trivial
  app _ _ := trivial
  enc _ := trivial
  nl := trivial
  joined _ _ := trivial
  fresh _ _ := ⟨rfl, rfl⟩
  longer _ _ _ _ h := h
  draws := by
    intro g t q hseg ht _ he h
    refine ends_of_drawable hseg ht he ?_
    rw [h.1, h.2]
    exact drawable_zero hseg he

/-- deleting the bytes that a selection spans -/
theorem delete_spans {env : Env} (hf : ∀ i, (env.stale i).follows = true) (hseg : IsSegmentation env.seg) {b : Buffer} {s : Bytes}
    {sel : Selection} {a e : Nat} (h : ForwardHistory b.content) (hs : Shows b.content s) (h1 : sel.anchor < s.length)
    (h2 : sel.cursor < s.length) (hsp : Spans env.seg s sel a e) (hae : a < e) (hok : e < s.length ∨ a = 0) :
    ∃ b' y, World.deleteInBuffer env b [sel] = .ok (b', [y]) ∧ ForwardHistory b'.content ∧ b'.content.content = without s a e := by
  have hw := (reachable_ready (forward_any h)).wf
  have hc := (shows_iff hw).1 hs
  have hr : selectionRange env.seg b.content sel = .ok (a, e) :=
    (C87_selected (forward_steady h) hs hseg h1 h2 a e).2 hsp
  have hle : e ≤ s.length := by
    rcases hsp.2 with ⟨_, h⟩ | ⟨_, _, _, _, _, _, _, _, h⟩ <;> omega
  obtain ⟨y, ht⟩ : ∃ y, b.content.textRange a e = .ok (some y) := by
    unfold textRange
    rw [range_eq hw (by omega), if_pos (by rw [hc]; omega)]
    exact ⟨_, rfl⟩
  obtain ⟨t', hdel, hsh⟩ : ∃ t', b.content.delete (env.stale 0) a (e - a) = .ok t' ∧ Shows t' (cut s a (e - a)) := by
    by_cases h3 : e < s.length
    · exact C02_delete_inside (forward_any h) hs (hf 0) (by omega) (by omega)
    · have h0 : a = 0 := hok.resolve_left h3
      obtain ⟨t', e1, e2⟩ := C02_delete_all (forward_any h) hs (env.stale 0)
      have he : e = s.length := by omega
      subst h0 he
      refine ⟨t', e1, ?_⟩
      have : cut s 0 (s.length - 0) = [] := by unfold cut; simp
      rw [this]; exact e2
  have hft := World.forward_delete h (hf 0) hdel
  have hct := (shows_iff (reachable_ready (forward_any hft)).wf).1 hsh
  have hcut : cut s a (e - a) = s.take a ++ s.drop e := by
    unfold cut
    rw [show a + (e - a) = e by omega]
  rw [hcut] at hct
  have hemp : t'.isEmpty = true ↔ a = 0 ∧ e = s.length := by
    rw [PieceTable.isEmpty_iff (reachable_ready (forward_any hft)).wf, hct, List.append_eq_nil_iff, List.take_eq_nil_iff,
      List.drop_eq_nil_iff]
    constructor
    · rintro ⟨h3 | h3, h4⟩
      · omega
      · subst h3; simp at h1
    · rintro ⟨h3, h4⟩; exact ⟨Or.inl h3, by omega⟩
  refine ⟨{ b with content := if t'.isEmpty then t'.append [NL] else t' }, y, ?_, ?_⟩
  · unfold World.deleteInBuffer World.deleteOne World.deleteRange
    simp only [List.foldlM_cons, List.foldlM_nil]
    rw [hr]
    simp only [except_bind_ok, ht]
    rw [if_neg (by omega), hdel]
    rfl
  · show ForwardHistory (if t'.isEmpty then t'.append [NL] else t') ∧ PieceTable.content (if t'.isEmpty then t'.append [NL] else t') = _
    unfold without
    by_cases hx : a = 0 ∧ e = s.length
    · rw [if_pos (hemp.2 hx), if_pos hx]
      refine ⟨World.forward_append hft (by simp), ?_⟩
      rw [append_content hft (by simp), hct, hx.1, hx.2]
      simp
    · rw [if_neg (fun e => hx (hemp.1 e)), if_neg hx]
      exact ⟨hft, hct⟩

theorem without_ends {s : Bytes} (h : EndsWithNewline s) {a e : Nat} (hle : e ≤ s.length) (hok : e < s.length ∨ a = 0) :
    EndsWithNewline (without s a e) := by
  unfold without
  split
  · rfl
  · rename_i hx
    have : e < s.length := by
      rcases hok with h1 | h1
      · exact h1
      · have : e ≠ s.length := fun e => hx ⟨h1, e⟩
        omega
    unfold EndsWithNewline at *
    rw [List.getLast?_append, List.getLast?_drop, if_neg (by omega), h]
    rfl

variable {env : Env} {w : World}

theorem safeAny_in (hseg : IsSegmentation env.seg) (hf : ∀ i, (env.stale i).follows = true) {op : CoreOp} (hs : SafeAny env w op) :
    SafeIn (anyKind env.seg hseg) env w op := by
  cases op with
  | edit c name sc =>
    refine ⟨hs.1, ⟨trivial, hs.2.1⟩, fun h => ?_⟩
    obtain ⟨h1, h2⟩ := hs.2.2 h
    refine ⟨fun h => ?_, fun b hb => ?_⟩
    · obtain ⟨f, e, ht⟩ := h1 h
      exact ⟨f, e, lossy_of_isText ht, trivial⟩
    · obtain ⟨b', r, s, g1, g2, g3, g4⟩ := h2 b hb
      exact ⟨b', r, s, g1, g2, ⟨trivial, g3⟩, World.allSel_of (K := anyKind _ hseg) g4⟩
  | scratch c name content =>
    refine ⟨hs.1, ⟨trivial, hs.2.1⟩, ?_⟩
    rcases hs.2.2 with ⟨h1, h2⟩ | ⟨h1, h2⟩
    · exact .inl ⟨h1, World.allSel_of (K := anyKind _ hseg) h2⟩
    · exact .inr ⟨⟨trivial, h1⟩, World.allSel_of (K := anyKind _ hseg) h2⟩
  | move c dir ext =>
    obtain ⟨ctx, hc, h1, h2⟩ := hs
    refine ⟨ctx, hc, h1, ?_⟩
    intro m n ss sel b hm hg hsel hb hgood hin
    have hst := forward_steady hgood.history
    have hsh := shows_content (reachable_ready (steady_any hst)).wf
    have hin : Placed env.seg b.content.content sel := hin
    rcases h2 m n ss sel b _ hm hg hsel hb hsh with h | ⟨i, k, o, g1, g2, g3⟩
    · exact ⟨sel, C20_one_byte (steady_any hst) hsh h _ _ _ _, hin⟩
    · by_cases h : b.content.content.length = 1
      · exact ⟨sel, C20_one_byte (steady_any hst) hsh h _ _ _ _, hin⟩
      have hlt := drawable_lt hgood.ends g3
      refine ⟨_, (C87_motion hst hsh hseg hin.2.1 h dir ext _).2 ⟨i, k, o, g1, g2, by omega, rfl⟩, ?_, ?_, g3⟩
      · show (if ext then sel.anchor else o) < _
        omega
      · show o < _
        omega
  | deleteSelection c =>
    obtain ⟨ctx, hc, h1, h2⟩ := hs
    refine ⟨ctx, hc, h1, ?_⟩
    intro m n sel b hm hg hb hgood hin
    have hsh := shows_content (reachable_ready (forward_any hgood.history)).wf
    have hin : Placed env.seg b.content.content sel := hin
    obtain ⟨a, e, g1, g2, g3, g4, g5⟩ := h2 m n sel b _ hm hg hb hsh
    obtain ⟨b', y, d1, d2, d3⟩ := delete_spans hf hseg hgood.history hsh hin.1 hin.2.1 g1 g2 g3
    have hle : e ≤ b.content.content.length := by
      rcases g1.2 with ⟨_, h⟩ | ⟨_, _, _, _, _, _, _, _, h⟩ <;> omega
    refine ⟨b', y, d1, ⟨d2, trivial, by rw [d3]; exact without_ends hgood.ends hle g3⟩, by rw [d3]; exact g4, by rw [d3]; exact g5⟩
  | append b x xs => exact ⟨⟨trivial, hs.1⟩, trivial, hs.2⟩
  | debug _ => trivial
  | message _ _ => trivial
  | error _ _ _ => exact ⟨trivial, trivial⟩
  | _ => exact hs

/-- no selection has moved -/
theorem still_all (k : World.Calm stillKind w) (n : Str) (s : Bytes) : World.AllSel stillKind w n s := by
  intro v hv hn c ctx m ss hc hm hg
  obtain ⟨b, hb⟩ := Assoc.has_iff.1 (World.live_has k.inv hv n hn)
  exact k.drawn.fits v hv c ctx m n ss b hc hm hn hg hb

theorem safeStill_in (k : World.Calm stillKind w) {op : CoreOp} (hs : SafeStill env w op) : SafeIn stillKind env w op := by
  cases op with
  | edit c name sc =>
    refine ⟨hs.1, ⟨trivial, hs.2.1⟩, fun h => ?_⟩
    obtain ⟨h1, h2⟩ := hs.2.2 h
    refine ⟨fun h => ?_, fun b hb => ?_⟩
    · obtain ⟨f, e, ht⟩ := h1 h
      exact ⟨f, e, lossy_of_isText ht, trivial⟩
    · obtain ⟨b', r, s, g1, g2, g3⟩ := h2 b hb
      exact ⟨b', r, s, g1, g2, ⟨trivial, g3⟩, still_all k _ _⟩
  | scratch c name content =>
    refine ⟨hs.1, ⟨trivial, hs.2.1⟩, ?_⟩
    rcases hs.2.2 with h | h
    · exact .inl ⟨h, still_all k _ _⟩
    · exact .inr ⟨⟨trivial, h⟩, still_all k _ _⟩
  | move c dir ext => exact absurd hs id
  | deleteSelection c => exact absurd hs id
  | append b x xs => exact ⟨⟨trivial, hs.1⟩, trivial, hs.2⟩
  | debug _ => trivial
  | message _ _ => trivial
  | error _ _ _ => exact ⟨trivial, trivial⟩
  | _ => exact hs

end Ced

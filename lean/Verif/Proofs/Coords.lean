import Verif.Spec.Coords
import Verif.Proofs.Reach

/-! # Lines, columns and offsets: the model agrees with `LineAt` -/

namespace Ced
open Spec

theorem newlinePositions_append (a b : Bytes) :
    newlinePositions (a ++ b) = newlinePositions a ++ (newlinePositions b).map (a.length + ·) := by
  induction a with
  | nil => simp [newlinePositions_nil]
  | cons x xs ih =>
    rw [List.cons_append, newlinePositions_cons, newlinePositions_cons, ih]
    simp [List.map_append, Nat.add_comm, Function.comp_def]
    intros; omega

theorem newlinePositions_length (s : Bytes) : (newlinePositions s).length = s.count NL := by
  induction s with
  | nil => rfl
  | cons b s ih =>
    rw [newlinePositions_cons, List.length_append, List.length_map, ih, List.count_cons]
    by_cases h : b = NL <;> simp [h]; omega

theorem newlinePositions_eq_nil {s : Bytes} (h : NL ∉ s) : newlinePositions s = [] := by
  rw [← List.length_eq_zero_iff, newlinePositions_length]
  exact List.count_eq_zero.2 h

theorem newlinePositions_getLast {s : Bytes} (h : s.getLast? = some NL) :
    (newlinePositions s).getLast? = some (s.length - 1) := by
  obtain ⟨ys, rfl⟩ := List.getLast?_eq_some_iff.1 h
  rw [newlinePositions_append]
  have : newlinePositions [NL] = [0] := by decide
  simp [this]

theorem lines_split {pre line suf : Bytes} (hs : pre = [] ∨ pre.getLast? = some NL) (hl : NL ∉ line)
    (ht : suf = [] ∨ suf.head? = some NL) (he : line ++ suf ≠ []) :
    (lines (pre ++ line ++ suf))[pre.count NL]? = some line := by
  have key : ∀ line : Bytes, NL ∉ line → line ++ suf ≠ [] → (lines (line ++ suf))[0]? = some line := by
    intro line hl he
    induction line with
    | nil =>
      rcases ht with rfl | ht
      · simp at he
      · cases suf with
        | nil => simp at ht
        | cons b bs =>
          simp only [List.head?_cons, Option.some.injEq] at ht
          subst ht
          simp [lines]
    | cons b bs ih =>
      have hb : b ≠ NL := fun h => hl (by simp [h])
      simp only [List.cons_append, lines, if_neg hb]
      by_cases hn : bs ++ suf = []
      · have h1 : bs = [] := (List.append_eq_nil_iff.1 hn).1
        rw [hn]; subst h1; simp [lines]
      · have := ih (fun h => hl (List.mem_cons_of_mem _ h)) hn
        cases hc : lines (bs ++ suf) with
        | nil => rw [hc] at this; simp at this
        | cons l ls => rw [hc] at this; simp at this; simp [this]
  have gen : ∀ pre : Bytes, (pre = [] ∨ pre.getLast? = some NL) →
      lines (pre ++ (line ++ suf)) = lines pre ++ lines (line ++ suf) ∧ (lines pre).length = pre.count NL := by
    intro pre
    induction pre with
    | nil => intro _; simp [lines]
    | cons b bs ih =>
      intro h
      by_cases hb : b = NL
      · subst hb
        have hbs : bs = [] ∨ bs.getLast? = some NL := by
          cases bs with
          | nil => exact Or.inl rfl
          | cons c cs => right; rcases h with h | h; cases h; rwa [List.getLast?_cons_cons] at h
        obtain ⟨h1, h2⟩ := ih hbs
        constructor
        · simp [lines, h1]
        · simp [lines, h2]
      · have hbs : bs.getLast? = some NL := by
          cases bs with
          | nil => rcases h with h | h; cases h; simp at h; exact absurd h hb
          | cons c cs => rcases h with h | h; cases h; rwa [List.getLast?_cons_cons] at h
        obtain ⟨h1, h2⟩ := ih (Or.inr hbs)
        have hne : lines bs ≠ [] := by
          rw [Ne, lines_eq_nil]; intro h; rw [h] at hbs; cases hbs
        obtain ⟨l, ls, hc⟩ := List.exists_cons_of_ne_nil hne
        constructor
        · simp only [List.cons_append, lines, if_neg hb, h1, hc]
        · simp only [lines, if_neg hb, hc]
          rw [hc] at h2
          rw [List.count_cons_of_ne hb, ← h2]; rfl
  obtain ⟨h1, h2⟩ := gen pre hs
  rw [List.append_assoc, h1, ← h2, List.getElem?_append_right (Nat.le_refl _), Nat.sub_self]
  exact key line hl he

namespace Spec.LineAt

variable {s pre line suf : Bytes} {n : Nat}

theorem pos (h : LineAt s n pre line suf) : 1 ≤ n := by rw [h.number]; omega

theorem ne_nil (h : LineAt s n pre line suf) : s ≠ [] := by
  intro h0; rw [h.split, List.append_assoc] at h0; exact h.exist (List.append_eq_nil_iff.1 h0).2

theorem get (h : LineAt s n pre line suf) : (lines s)[n - 1]? = some line := by
  rw [h.split, h.number]; exact lines_split h.starts h.noNewline h.stops h.exist

theorem newlines (h : LineAt s n pre line suf) :
    newlinePositions s = newlinePositions pre ++ (newlinePositions suf).map (pre.length + line.length + ·) := by
  rw [h.split, newlinePositions_append, newlinePositions_append, newlinePositions_eq_nil h.noNewline]
  simp

theorem count (h : LineAt s n pre line suf) : (newlinePositions pre).length = n - 1 := by
  rw [newlinePositions_length, h.number]; rfl

theorem length (h : LineAt s n pre line suf) : s.length = pre.length + line.length + suf.length := by
  rw [h.split]; simp [Nat.add_assoc]

theorem pre_eq_nil (h : LineAt s n pre line suf) : pre = [] ↔ n = 1 := by
  constructor
  · intro e; rw [h.number, e]; rfl
  · intro e
    rcases h.starts with h' | h'
    · exact h'
    · exfalso
      have : pre.count NL = 0 := by have := h.number; omega
      exact List.count_eq_zero.1 this (List.mem_of_getLast? h')

theorem pre_last (h : LineAt s n pre line suf) (hn : 1 < n) :
    (newlinePositions s)[n - 2]? = some (pre.length - 1) ∧ 0 < pre.length := by
  have hp : pre ≠ [] := fun e => by rw [h.pre_eq_nil.1 e] at hn; omega
  have hl : pre.getLast? = some NL := h.starts.resolve_left hp
  refine ⟨?_, List.length_pos_iff.2 hp⟩
  rw [h.newlines, List.getElem?_append_left (by rw [h.count]; omega)]
  have := newlinePositions_getLast hl
  rw [List.getLast?_eq_getElem?, h.count] at this
  exact this

theorem suf_head (h : LineAt s n pre line suf) (hs : suf ≠ []) :
    (newlinePositions s)[n - 1]? = some (pre.length + line.length) := by
  obtain ⟨b, bs, rfl⟩ := List.exists_cons_of_ne_nil hs
  have hb : b = NL := by have := h.stops; simpa using this
  rw [h.newlines, List.getElem?_append_right (by rw [h.count]; omega), h.count, Nat.sub_self, hb,
    newlinePositions_cons]
  simp

theorem mem_suf (h : LineAt s n pre line suf) {v : Nat} (hv : v ∈ newlinePositions s) (hp : pre.length ≤ v) :
    pre.length + line.length ≤ v := by
  rw [h.newlines, List.mem_append] at hv
  rcases hv with hv | hv
  · obtain ⟨i, hi⟩ := List.getElem?_of_mem hv
    have := newline_lt hi
    omega
  · simp only [List.mem_map] at hv
    obtain ⟨k, _, rfl⟩ := hv; omega

/-- a text has at most one line of each number -/
theorem unique {pre' line' suf' : Bytes} (h : LineAt s n pre line suf) (h' : LineAt s n pre' line' suf') :
    pre' = pre ∧ line' = line ∧ suf' = suf := by
  have hl : line' = line := by have h1 := h.get; have h2 := h'.get; rw [h1] at h2; simpa using h2.symm
  have hp : pre'.length = pre.length := by
    rcases Nat.lt_or_ge 1 n with hn | hn
    · have h1 := h.pre_last hn
      have h2 := h'.pre_last hn
      rw [h1.1] at h2
      have := h2.1
      simp only [Option.some.injEq] at this
      omega
    · have h1 : n = 1 := by have := h.pos; omega
      rw [h.pre_eq_nil.2 h1, h'.pre_eq_nil.2 h1]
  have e := h.split
  rw [h'.split, List.append_assoc, List.append_assoc] at e
  obtain ⟨e1, e2⟩ := List.append_inj e hp
  refine ⟨e1, hl, ?_⟩
  rw [hl] at e2
  exact List.append_cancel_left e2

end Spec.LineAt

/-- every position inside a text is on one of its lines -/
theorem exists_lineAt {s : Bytes} {o : Nat} (h : o < s.length) :
    ∃ n pre line suf, LineAt s n pre line suf ∧ pre.length ≤ o ∧ o ≤ pre.length + line.length ∧
      o < s.length := by
  induction s generalizing o with
  | nil => simp at h
  | cons b bs ih =>
    have first : ∀ l : Bytes, ∃ line suf, l = line ++ suf ∧ NL ∉ line ∧ (suf = [] ∨ suf.head? = some NL) := by
      intro l
      induction l with
      | nil => exact ⟨[], [], rfl, by simp, Or.inl rfl⟩
      | cons c cs ih =>
        by_cases hc : c = NL
        · exact ⟨[], c :: cs, rfl, by simp, Or.inr (by simp [hc])⟩
        · obtain ⟨l1, l2, e, h1, h2⟩ := ih
          exact ⟨c :: l1, l2, by simp [e], by simp only [List.mem_cons, not_or]; exact ⟨fun h => hc h.symm, h1⟩, h2⟩
    by_cases hb : b = NL
    · cases o with
      | zero =>
        exact ⟨1, [], [], b :: bs, ⟨rfl, rfl, Or.inl rfl, by simp, Or.inr (by simp [hb]), by simp⟩, by simp, by simp, h⟩
      | succ o =>
        obtain ⟨n, pre, line, suf, hl, h1, h2, h3⟩ := ih (o := o) (by simpa using h)
        refine ⟨n + 1, b :: pre, line, suf, ⟨by rw [hl.split]; simp, ?_, ?_, hl.noNewline, hl.stops, hl.exist⟩,
          by simpa using h1, by simp; omega, h⟩
        · rw [hl.number, hb]; simp
        · right
          rcases hl.starts with e | e
          · simp [e, hb]
          · cases pre with
            | nil => cases e
            | cons x xs => rwa [List.getLast?_cons_cons]
    · -- `b` belongs to the first line
      by_cases hn : bs = []
      · subst hn
        have : o = 0 := by simp at h; exact h
        subst this
        exact ⟨1, [], [b], [], ⟨rfl, rfl, Or.inl rfl, by simpa using fun h => hb h.symm, Or.inl rfl, by simp⟩, by simp, by simp, h⟩
      · obtain ⟨m, hm⟩ : ∃ m, m = o - 1 := ⟨_, rfl⟩
        have hpos := List.length_pos_iff.2 hn
        obtain ⟨n, pre, line, suf, hl, h1, h2, h3⟩ := ih (o := m) (by simp at h; omega)
        rcases hl.starts with e | e
        · subst e
          refine ⟨1, [], b :: line, suf, ⟨by rw [hl.split]; simp, rfl, Or.inl rfl, ?_, hl.stops, by simp⟩,
            by simp, ?_, h⟩
          · simp only [List.mem_cons, not_or]; exact ⟨fun h => hb h.symm, hl.noNewline⟩
          · simp at h2 ⊢; omega
        · by_cases ho : o = 0
          · -- the first line
            subst ho
            obtain ⟨l1, l2, e, g1, g2⟩ := first (b :: bs)
            exact ⟨1, [], l1, l2, ⟨by simpa using e, rfl, Or.inl rfl, g1, g2, by rw [← e]; simp⟩, by simp, by simp, h⟩
          · refine ⟨n, b :: pre, line, suf, ⟨by rw [hl.split]; simp, ?_, ?_, hl.noNewline, hl.stops, hl.exist⟩,
              by simp; omega, by simp; omega, h⟩
            · rw [hl.number, List.count_cons_of_ne hb]
            · right
              cases pre with
              | nil => cases e
              | cons x xs => rwa [List.getLast?_cons_cons]

/-- every existing line number has its decomposition -/
theorem exists_line {s : Bytes} {n : Nat} (h1 : 1 ≤ n) (h2 : n ≤ (lines s).length) :
    ∃ pre line suf, LineAt s n pre line suf := by
  induction s generalizing n with
  | nil => simp [lines] at h2; omega
  | cons b bs ih =>
    by_cases hb : b = NL
    · rcases Nat.lt_or_ge 1 n with hn | hn
      · have : n - 1 ≤ (lines bs).length := by simp [lines, hb] at h2; omega
        obtain ⟨pre, line, suf, hl⟩ := ih (n := n - 1) (by omega) this
        refine ⟨b :: pre, line, suf, ⟨by rw [hl.split]; simp, ?_, ?_, hl.noNewline, hl.stops, hl.exist⟩⟩
        · have := hl.number; rw [hb]; simp; omega
        · right
          rcases hl.starts with e | e
          · simp [e, hb]
          · cases pre with
            | nil => cases e
            | cons x xs => rwa [List.getLast?_cons_cons]
      · have : n = 1 := by omega
        subst this
        exact ⟨[], [], b :: bs, rfl, rfl, Or.inl rfl, by simp, Or.inr (by simp [hb]), by simp⟩
    · rcases Nat.lt_or_ge 1 n with hn | hn
      · have hlb : n ≤ (lines bs).length := by
          simp only [lines, if_neg hb] at h2
          cases hc : lines bs with
          | nil => rw [hc] at h2; simp at h2; omega
          | cons l ls => rw [hc] at h2; simpa using h2
        obtain ⟨pre, line, suf, hl⟩ := ih (n := n) h1 hlb
        have hp : pre ≠ [] := fun e => by rw [hl.pre_eq_nil.1 e] at hn; omega
        refine ⟨b :: pre, line, suf, ⟨by rw [hl.split]; simp, ?_, ?_, hl.noNewline, hl.stops, hl.exist⟩⟩
        · rw [hl.number, List.count_cons_of_ne hb]
        · right
          have e := hl.starts.resolve_left hp
          cases pre with
          | nil => cases e
          | cons x xs => rwa [List.getLast?_cons_cons]
      · have : n = 1 := by omega
        subst this
        obtain ⟨k, pre, line, suf, hl, g1, g2, _⟩ := exists_lineAt (s := b :: bs) (o := 0) (by simp)
        have hp : pre = [] := List.length_eq_zero_iff.1 (by omega)
        have hk := hl.pre_eq_nil.1 hp
        subst hk
        exact ⟨pre, line, suf, hl⟩

theorem lineAt_le {s pre line suf : Bytes} {n : Nat} (h : LineAt s n pre line suf) : n ≤ (lines s).length := by
  have := h.get
  rcases Nat.lt_or_ge (n - 1) (lines s).length with h' | h'
  · omega
  · rw [List.getElem?_eq_none h'] at this; cases this

end Ced

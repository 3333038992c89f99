import Verif.Model.LuaEnv

/-! # Reading a Lua literal: lengths -/

namespace Ced.LuaLex

/-- the bytes of the unfinished escape that are not in the value -/
def owed : LuaLex → Nat
  | text => 0
  | escape => 1
  | hex none => 2
  | hex (some _) => 3
  | dec _ n => n + 2
  | skip => 2
  | brace => 2
  | uniStart => 3
  | uni _ => 4
  | eol _ => 1

theorem size_pos (c : Char) : 1 ≤ (Str.encode [c]).length := by
  have := c.utf8Size_pos
  simp only [Str.encode, List.flatMap_cons, List.flatMap_nil, List.append_nil, String.length_utf8EncodeChar]
  exact this

/-- a character of the text of a literal -/
def PlainChar (c : Char) : Prop := c ≠ '"' ∧ c ≠ '\\' ∧ c ≠ '\n' ∧ c ≠ '\r'

theorem textStep_plain {c : Char} (h : PlainChar c) : textStep c = .go .text (Str.encode [c]) := by
  obtain ⟨h1, h2, h3, h4⟩ := h
  simp [textStep, h1, h2, h3, h4]

theorem textStep_cases (c : Char) : (c = '"' ∧ textStep c = .close []) ∨ (c = '\\' ∧ textStep c = .go .escape []) ∨
    textStep c = .fail ∨ (PlainChar c ∧ textStep c = .go .text (Str.encode [c])) := by
  by_cases h1 : c = '"'
  · subst h1; exact .inl ⟨rfl, rfl⟩
  · by_cases h2 : c = '\\'
    · subst h2; exact .inr (.inl ⟨rfl, rfl⟩)
    · by_cases h3 : c = '\n'
      · subst h3; exact .inr (.inr (.inl rfl))
      · by_cases h4 : c = '\r'
        · subst h4; exact .inr (.inr (.inl rfl))
        · exact .inr (.inr (.inr ⟨⟨h1, h2, h3, h4⟩, textStep_plain ⟨h1, h2, h3, h4⟩⟩))

/-- the text step after some bytes that cost more than they are -/
theorem after_bound {c : Char} {b : Bytes} {n : Nat} (hn : b.length < n) :
    (∀ st out, (textStep c).after b = .go st out → out.length + owed st ≤ n + (Str.encode [c]).length ∧
      (st = .text → out.length < n + (Str.encode [c]).length)) ∧
    (∀ out, (textStep c).after b = .close out → out.length + 1 < n + (Str.encode [c]).length) := by
  have hp := size_pos c
  rcases textStep_cases c with ⟨rfl, h⟩ | ⟨rfl, h⟩ | h | ⟨_, h⟩ <;> rw [h]
  · refine ⟨fun _ _ hh => (by cases hh), fun out hh => ?_⟩
    cases hh; simp; omega
  · refine ⟨fun _ _ hh => ?_, fun out hh => by cases hh⟩
    cases hh; simp [owed]; omega
  · exact ⟨fun _ _ hh => (by cases hh), fun _ hh => (by cases hh)⟩
  · refine ⟨fun _ _ hh => ?_, fun out hh => by cases hh⟩
    cases hh; simp [owed]; omega

theorem utf8Esc_length (v : Nat) : (utf8Esc v).length ≤ 4 := by
  unfold utf8Esc; repeat' split
  all_goals simp

theorem after_nil (s : LuaStep) : s.after [] = s := by cases s <;> rfl

/-- every step in an escape costs more than it gives -/
theorem step_bound {st : LuaLex} (hst : st ≠ .text) (c : Char) :
    (∀ st' out, step st c = .go st' out → out.length + owed st' ≤ owed st + (Str.encode [c]).length ∧
      (st' = .text → out.length < owed st + (Str.encode [c]).length)) ∧
    (∀ out, step st c = .close out → out.length + 1 < owed st + (Str.encode [c]).length) := by
  have hp := size_pos c
  cases st with
  | text => exact absurd rfl hst
  | escape =>
    unfold step escapeStep
    dsimp only
    repeat' split
    all_goals refine ⟨fun _ _ hh => ?_, fun _ hh => ?_⟩
    all_goals cases hh
    all_goals simp [owed]
    all_goals omega
  | hex f =>
    cases f with
    | none =>
      unfold step; dsimp only
      split
      all_goals refine ⟨fun _ _ hh => ?_, fun _ hh => ?_⟩
      all_goals cases hh
      all_goals simp [owed]
      all_goals omega
    | some v =>
      unfold step; dsimp only
      split
      all_goals refine ⟨fun _ _ hh => ?_, fun _ hh => ?_⟩
      all_goals cases hh
      all_goals simp [owed]
      all_goals omega
  | dec v n =>
    unfold step; dsimp only
    split
    · refine ⟨fun _ _ hh => ?_, fun _ hh => by cases hh⟩
      cases hh
      simp [owed]; omega
    · split
      · exact after_bound (by simp [owed])
      · exact ⟨fun _ _ hh => (by cases hh), fun _ hh => (by cases hh)⟩
  | skip =>
    unfold step; dsimp only
    split
    · refine ⟨fun _ _ hh => ?_, fun _ hh => by cases hh⟩
      cases hh
      simp [owed]
    · have := after_bound (c := c) (b := []) (n := 2) (by simp)
      rw [after_nil] at this
      exact this
  | brace =>
    unfold step; dsimp only
    split
    all_goals refine ⟨fun _ _ hh => ?_, fun _ hh => ?_⟩
    all_goals cases hh
    all_goals simp [owed]
    all_goals omega
  | uniStart =>
    unfold step; dsimp only
    split
    all_goals refine ⟨fun _ _ hh => ?_, fun _ hh => ?_⟩
    all_goals cases hh
    all_goals simp [owed]
    all_goals omega
  | uni v =>
    have := utf8Esc_length v
    unfold step; dsimp only
    repeat' split
    all_goals refine ⟨fun _ _ hh => ?_, fun _ hh => ?_⟩
    all_goals cases hh
    all_goals simp [owed]
    all_goals omega
  | eol e =>
    unfold step; dsimp only
    split
    · refine ⟨fun _ _ hh => ?_, fun _ hh => by cases hh⟩
      cases hh
      simp [owed]; omega
    · have := after_bound (c := c) (b := []) (n := 1) (by simp)
      rw [after_nil] at this
      exact this

theorem encode_cons (c : Char) (s : Str) : Str.encode (c :: s) = Str.encode [c] ++ Str.encode s := by
  simp [Str.encode]

theorem encode_append (a b : Str) : Str.encode (a ++ b) = Str.encode a ++ Str.encode b := by
  simp [Str.encode]

/-- A literal is longer than its value, unless it is the value. -/
theorem read_bound {s : Str} : ∀ {st : LuaLex} {v : Bytes} {rest : Str}, read st s = some (v, rest) →
    v.length + (Str.encode rest).length + 1 < (Str.encode s).length + owed st ∨
    (st = .text ∧ ∃ p, s = p ++ '"' :: rest ∧ (∀ c ∈ p, PlainChar c) ∧ v = Str.encode p) := by
  induction s with
  | nil => intro st v rest h; cases h
  | cons c cs ih =>
    intro st v rest h
    have hp := size_pos c
    rw [encode_cons, List.length_append]
    unfold read at h
    by_cases hst : st = .text
    · subst hst
      rcases textStep_cases c with ⟨rfl, hc⟩ | ⟨rfl, hc⟩ | hc | ⟨hpl, hc⟩ <;>
        rw [show step .text _ = _ from hc] at h
      · cases h
        exact .inr ⟨rfl, [], rfl, by simp, rfl⟩
      · dsimp only at h
        cases hr : read .escape cs with
        | none => rw [hr] at h; cases h
        | some r =>
          rw [hr] at h
          obtain ⟨v', r'⟩ := r
          cases h
          rcases ih hr with h1 | ⟨h1, _⟩
          · left; simp [owed] at h1 ⊢; omega
          · cases h1
      · cases h
      · dsimp only at h
        cases hr : read .text cs with
        | none => rw [hr] at h; cases h
        | some r =>
          rw [hr] at h
          obtain ⟨v', r'⟩ := r
          cases h
          rcases ih hr with h1 | ⟨_, p, h1, h2, h3⟩
          · left; simp [owed] at h1 ⊢; omega
          · refine .inr ⟨rfl, c :: p, by rw [h1]; rfl, ?_, ?_⟩
            · intro d hd
              rcases List.mem_cons.1 hd with rfl | hd
              · exact hpl
              · exact h2 d hd
            · rw [h3]; exact (encode_cons c p).symm
    · obtain ⟨hgo, hcl⟩ := step_bound hst c
      left
      cases hs : step st c with
      | fail => rw [hs] at h; cases h
      | close out =>
        rw [hs] at h
        cases h
        have := hcl _ hs
        omega
      | go st' out =>
        rw [hs] at h
        dsimp only at h
        cases hr : read st' cs with
        | none => rw [hr] at h; cases h
        | some r =>
          rw [hr] at h
          obtain ⟨v', r'⟩ := r
          cases h
          obtain ⟨h1, h2⟩ := hgo _ _ hs
          rw [List.length_append]
          rcases ih hr with h3 | ⟨h3, p, h4, _, h6⟩
          · dsimp only at h3 ⊢; omega
          · have := h2 h3
            dsimp only at h6 ⊢
            rw [h4, encode_append, encode_cons '"', h6, List.length_append, List.length_append]
            have := size_pos '"'
            omega

/-- A plain literal is read as it stands. -/
theorem read_plain {p : Str} (h : ∀ c ∈ p, PlainChar c) (rest : Str) :
    read .text (p ++ '"' :: rest) = some (Str.encode p, rest) := by
  induction p with
  | nil => rfl
  | cons c p ih =>
    show read .text (c :: (p ++ '"' :: rest)) = _
    unfold read
    rw [show step .text c = _ from textStep_plain (h c List.mem_cons_self)]
    dsimp only
    rw [ih fun d hd => h d (List.mem_cons_of_mem _ hd), encode_cons c p]
    rfl

/-- A plain literal that does not end on its line is an error. -/
theorem read_line {p : Str} (h : ∀ c ∈ p, PlainChar c) {c : Char} (hc : c = '\n' ∨ c = '\r') (rest : Str) :
    read .text (p ++ c :: rest) = none := by
  induction p with
  | nil =>
    show read .text (c :: rest) = none
    rcases hc with rfl | rfl <;> rfl
  | cons d p ih =>
    show read .text (d :: (p ++ c :: rest)) = _
    unfold read
    rw [show step .text d = _ from textStep_plain (h d List.mem_cons_self)]
    dsimp only
    rw [ih fun d hd => h d (List.mem_cons_of_mem _ hd)]
    rfl

end Ced.LuaLex

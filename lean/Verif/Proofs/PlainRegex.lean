import Verif.Proofs.Menu

/-! # What the matcher of plain searches finds -/

namespace Ced.PlainRegex
open Ced.Spec
variable {same : Char → Char → Bool}

theorem sameBut_length {a b : Str} (h : SameBut same a b) : a.length = b.length := by
  induction a generalizing b with
  | nil => cases b with
    | nil => rfl
    | cons => exact absurd h (by simp [SameBut])
  | cons c a ih => cases b with
    | nil => exact absurd h (by simp [SameBut])
    | cons d b => simp only [List.length_cons, ih h.2]

theorem prefixFold_iff {w s : Str} : prefixFold same w s = true ↔ ∃ x rest, s = x ++ rest ∧ SameBut same w x := by
  induction w generalizing s with
  | nil => exact ⟨fun _ => ⟨[], s, rfl, trivial⟩, fun _ => rfl⟩
  | cons a w ih =>
    cases s with
    | nil =>
      simp only [prefixFold, Bool.false_eq_true, false_iff]
      rintro ⟨x, rest, h, hx⟩
      have : x = [] := by cases x with | nil => rfl | cons => cases h
      subst this; exact hx
    | cons b s =>
      simp only [prefixFold, Bool.and_eq_true, ih]
      constructor
      · rintro ⟨h, x, rest, rfl, hx⟩; exact ⟨b :: x, rest, rfl, h, hx⟩
      · rintro ⟨x, rest, h, hx⟩
        cases x with
        | nil => exact absurd hx (by simp [SameBut])
        | cons c x =>
          simp only [List.cons_append, List.cons.injEq] at h
          obtain ⟨rfl, rfl⟩ := h
          exact ⟨hx.1, x, rest, rfl, hx.2⟩

theorem prefixFold_take {w s : Str} (h : prefixFold same w s = true) :
    SameBut same w (s.take w.length) ∧ w.length ≤ s.length := by
  obtain ⟨x, rest, rfl, hx⟩ := prefixFold_iff.1 h
  rw [sameBut_length hx]
  simp [hx]

theorem gap_some {α : Type} {k : Str → Nat → Option α} {s : Str} {pos : Nat} {r : α} (h : gap k s pos = some r) :
    ∃ g rest, s = g ++ rest ∧ '\n' ∉ g ∧ k rest (pos + g.length) = some r := by
  induction s generalizing pos with
  | nil => exact ⟨[], [], rfl, by simp, h⟩
  | cons c s ih =>
    rw [gap] at h
    split at h
    · exact ⟨[], _, rfl, by simp, h⟩
    · rename_i hc
      split at h
      · rename_i r' hr
        cases h
        obtain ⟨g, rest, rfl, hg, hk⟩ := ih hr
        refine ⟨c :: g, rest, rfl, by simp [hg]; exact fun e => hc e.symm, ?_⟩
        rw [List.length_cons, ← hk]; congr 1; omega
      · exact ⟨[], _, rfl, by simp, h⟩

theorem gap_isSome {α : Type} {k : Str → Nat → Option α} {g rest : Str} {pos : Nat} (hg : '\n' ∉ g)
    (h : (k rest (pos + g.length)).isSome = true) : (gap k (g ++ rest) pos).isSome = true := by
  induction g generalizing pos with
  | nil =>
    rw [List.nil_append]
    rw [List.length_nil, Nat.add_zero] at h
    cases rest with
    | nil => exact h
    | cons c s =>
      rw [gap]
      split
      · exact h
      · split
        · rfl
        · exact h
  | cons c g ih =>
    simp only [List.mem_cons, not_or] at hg
    rw [List.cons_append, gap, if_neg (fun e => hg.1 e.symm)]
    have := ih (pos := pos + 1) hg.2 (by rw [← h, List.length_cons]; congr 2; omega)
    split
    · rfl
    · rename_i hn; rw [hn] at this; cases this

/-- the ranges found: one for each word, in order, from `pos` on; `s` is the text from `pos` on -/
def Found (same : Char → Char → Bool) (ws : List Str) (s : Str) (pos : Nat) (gs : List (Nat × Nat)) : Prop :=
  InOrderFrom (pos + s.length) pos (gs.map some) ∧ (∀ g, gs.head? = some g → g.1 = pos) ∧
  List.Forall₂ (fun w g => SameBut same w ((s.take (g.2 - pos)).drop (g.1 - pos))) ws gs

theorem inOrder_mono {len start start' : Nat} {gs : Locations} (h : InOrderFrom len start gs) (hs : start' ≤ start) :
    InOrderFrom len start' gs := by
  induction gs generalizing start with
  | nil => exact Nat.le_trans hs h
  | cons g gs ih =>
    cases g with
    | none => exact ih h hs
    | some ab => obtain ⟨a, b⟩ := ab; exact ⟨Nat.le_trans hs h.1, h.2.1, h.2.2⟩

theorem inOrder_ge {len : Nat} {gs : List (Nat × Nat)} {start : Nat} (h : InOrderFrom len start (gs.map some)) :
    ∀ g ∈ gs, start ≤ g.1 ∧ g.1 ≤ g.2 ∧ g.2 ≤ len := by
  induction gs generalizing start with
  | nil => simp
  | cons g gs ih =>
    obtain ⟨a, b⟩ := g
    obtain ⟨h1, h2, h3⟩ := h
    intro x hx
    rcases List.mem_cons.1 hx with rfl | hx
    · exact ⟨h1, h2, Menu.inOrder_le h3⟩
    · have := ih h3 x hx; omega

theorem forall2_mono {α β : Type} {P Q : α → β → Prop} {as : List α} {bs : List β} (h : List.Forall₂ P as bs)
    (hpq : ∀ a b, b ∈ bs → P a b → Q a b) : List.Forall₂ Q as bs := by
  induction h with
  | nil => exact .nil
  | cons h t ih => exact .cons (hpq _ _ (List.mem_cons_self ..) h) (ih fun a b hb => hpq a b (List.mem_cons_of_mem _ hb))

theorem words_found {ws : List Str} {s : Str} {pos : Nat} {gs : List (Nat × Nat)} (h : words same ws s pos = some gs) :
    Found same ws s pos gs ∧ WordsAt same ws s := by
  induction ws generalizing s pos gs with
  | nil => cases h; exact ⟨⟨Nat.le_add_right .., by simp, .nil⟩, trivial⟩
  | cons w ws ih =>
    have hp : prefixFold same w s = true := by
      cases ws with
      | nil => rw [words] at h; split at h; assumption; cases h
      | cons w' ws' => rw [words] at h; split at h; assumption; cases h
    · obtain ⟨hw, hl⟩ := prefixFold_take hp
      have hhead : SameBut same w ((s.take (pos + w.length - pos)).drop (pos - pos)) := by
        simpa using hw
      cases ws with
      | nil =>
        rw [words, if_pos hp] at h
        cases h
        refine ⟨⟨⟨Nat.le_refl _, Nat.le_add_right .., ?_⟩, ?_, .cons hhead .nil⟩, ?_⟩
        · show pos + w.length ≤ _; omega
        · intro g hg; cases hg; rfl
        · exact ⟨_, _, (List.take_append_drop w.length s).symm, hw, .inl rfl⟩
      | cons w' ws' =>
        rw [words, if_pos hp] at h
        obtain ⟨gs', hg, rfl⟩ := Option.map_eq_some_iff.1 h
        obtain ⟨g, rest, hgr, hn, hk⟩ := gap_some hg
        obtain ⟨⟨f1, f2, f3⟩, wa⟩ := ih hk
        have hlen : s.length = w.length + g.length + rest.length := by
          have := congrArg List.length hgr
          simp only [List.length_drop, List.length_append] at this
          omega
        have hs : s = s.take w.length ++ g ++ rest := by
          rw [List.append_assoc, ← hgr, List.take_append_drop]
        refine ⟨⟨⟨Nat.le_refl _, Nat.le_add_right .., ?_⟩, ?_, .cons hhead ?_⟩, ?_⟩
        · refine inOrder_mono (start := pos + w.length + g.length) ?_ (by omega)
          have : pos + s.length = pos + w.length + g.length + rest.length := by omega
          rw [this]; exact f1
        · intro g hg; cases hg; rfl
        · refine forall2_mono f3 fun a b hb hP => ?_
          obtain ⟨g1, g2, g3⟩ := inOrder_ge f1 b hb
          have e : (s.take (b.2 - pos)).drop (b.1 - pos) =
              (rest.take (b.2 - (pos + w.length + g.length))).drop (b.1 - (pos + w.length + g.length)) := by
            have hlen' : (s.take w.length ++ g).length = w.length + g.length := by
              rw [List.length_append, List.length_take]; omega
            conv => lhs; rw [hs]
            rw [List.take_append, List.drop_append]
            rw [List.take_of_length_le (by rw [hlen']; omega), List.drop_of_length_le (by rw [hlen']; omega), List.nil_append,
              hlen']
            congr 1
            · omega
            · congr 1; omega
          rw [e]; exact hP
        · exact ⟨_, _, (List.take_append_drop w.length s).symm, hw, .inr ⟨g, rest, hgr, hn, wa⟩⟩

theorem words_isSome {ws : List Str} {s : Str} (pos : Nat) (h : WordsAt same ws s) : (words same ws s pos).isSome = true := by
  induction ws generalizing s pos with
  | nil => rfl
  | cons w ws ih =>
    obtain ⟨x, rest, rfl, hx, h⟩ := h
    have hp : prefixFold same w (x ++ rest) = true := prefixFold_iff.2 ⟨x, rest, rfl, hx⟩
    cases ws with
    | nil => rw [words, if_pos hp]; rfl
    | cons w' ws' =>
      rcases h with h | ⟨g, rest', rfl, hn, h⟩
      · cases h
      · rw [words, if_pos hp, Option.isSome_map, sameBut_length hx, List.drop_left]
        exact gap_isSome hn (ih _ h)

/-- what the search returns -/
theorem search_found {ws : List Str} {s : Str} {pos : Nat} {locs : Locations} (h : search same ws s pos = some locs) :
    ∃ start gs, locs = some (start, (gs.getLastD (start, start)).2) :: gs.map some ∧ pos ≤ start ∧
      start ≤ pos + s.length ∧ Found same ws (s.drop (start - pos)) start gs := by
  induction s generalizing pos with
  | nil =>
    rw [search] at h
    obtain ⟨gs, hg, rfl⟩ := Option.map_eq_some_iff.1 h
    exact ⟨pos, gs, rfl, Nat.le_refl _, Nat.le_add_right .., by simpa using (words_found hg).1⟩
  | cons c s ih =>
    rw [search] at h
    split at h
    · rename_i gs hg
      cases h
      exact ⟨pos, gs, rfl, Nat.le_refl _, Nat.le_add_right .., by simpa using (words_found hg).1⟩
    · obtain ⟨start, gs, h1, h2, h3, h4⟩ := ih h
      refine ⟨start, gs, h1, by omega, by rw [List.length_cons]; omega, ?_⟩
      have : start - pos = (start - (pos + 1)) + 1 := by omega
      rw [this, List.drop_succ_cons]
      exact h4

theorem search_isSome {ws : List Str} {s : Str} {pos : Nat} :
    (search same ws s pos).isSome = true ↔ WordsInOrder same ws s := by
  induction s generalizing pos with
  | nil =>
    rw [search, Option.isSome_map]
    constructor
    · intro h
      obtain ⟨gs, hg⟩ := Option.isSome_iff_exists.1 h
      exact ⟨[], [], rfl, (words_found hg).2⟩
    · rintro ⟨b, r, h, hw⟩
      have hr : r = [] := by
        have := congrArg List.length h
        simp only [List.length_nil, List.length_append] at this
        exact List.length_eq_zero_iff.1 (by omega)
      subst hr
      exact words_isSome _ hw
  | cons c s ih =>
    rw [search]
    split
    · rename_i gs hg
      exact ⟨fun _ => ⟨[], c :: s, rfl, (words_found hg).2⟩, fun _ => rfl⟩
    · rename_i hn
      rw [ih]
      constructor
      · rintro ⟨b, r, rfl, hw⟩; exact ⟨c :: b, r, rfl, hw⟩
      · rintro ⟨b, r, h, hw⟩
        cases b with
        | nil =>
          simp only [List.nil_append] at h
          subst h
          have := words_isSome pos hw
          rw [hn] at this; cases this
        | cons d b =>
          simp only [List.cons_append, List.cons.injEq] at h
          exact ⟨b, r, h.2, hw⟩

/-- the locations of a match are fit for the score and the fragments, and the groups spell the words -/
theorem regex_found {ws : List Str} {text : Str} {locs : Locations} (h : regex same ws text = some locs) :
    (∃ a b n, locs.head? = some (some (a, b)) ∧ Menu.scoreSpan text locs = .ok n) ∧
    InOrderFrom text.length 0 locs.tail ∧ (∀ g ∈ locs, g.isSome = true) ∧
    List.Forall₂ (fun w g => ∀ ab, g = some ab → SameBut same w ((text.take ab.2).drop ab.1)) ws locs.tail := by
  obtain ⟨start, gs, rfl, _, h3, f1, f2, f3⟩ := search_found h
  simp only [Nat.sub_zero, Nat.zero_add] at h3 f1 f2 f3
  have hlen : start + (text.drop start).length = text.length := by rw [List.length_drop]; omega
  rw [hlen] at f1
  refine ⟨⟨start, ?_⟩, inOrder_mono f1 (Nat.zero_le _), ?_, ?_⟩
  · have hlast : ∃ ab, (some (start, (gs.getLastD (start, start)).2) :: gs.map some).getLastD none = some ab := by
      have hne : (some (start, (gs.getLastD (start, start)).2) :: gs.map some) ≠ [] := by simp
      rw [List.getLastD_eq_getLast?, List.getLast?_eq_some_getLast hne]
      have := List.getLast_mem hne
      simp only [List.mem_cons, List.mem_map] at this
      rcases this with h | ⟨x, _, h⟩
      · exact ⟨_, by rw [Option.getD_some]; exact h⟩
      · exact ⟨x, by rw [Option.getD_some]; exact h.symm⟩
    obtain ⟨ab, hab⟩ := hlast
    refine ⟨_, Menu.byteSpan text start ab.2, rfl, ?_⟩
    unfold Menu.scoreSpan
    rw [hab]
    rfl
  · intro g hg
    simp only [List.mem_cons, List.mem_map] at hg
    rcases hg with rfl | ⟨x, _, rfl⟩ <;> rfl
  · rw [List.tail_cons]
    have hmem := inOrder_ge f1
    clear h f2
    induction f3 with
    | nil => exact .nil
    | @cons w g ws gs hw _ ih =>
      refine .cons ?_ (ih ?_ ?_)
      · intro ab hab
        cases hab
        obtain ⟨m1, m2, m3⟩ := hmem g (List.mem_cons_self ..)
        have : (text.take g.2).drop g.1 = ((text.drop start).take (g.2 - start)).drop (g.1 - start) := by
          rw [List.take_drop, List.drop_drop]
          congr 1
          · omega
          · congr 1; omega
        rw [this]; exact hw
      · exact inOrder_mono f1.2.2 (by have := f1.1; have := f1.2.1; omega)
      · intro x hx; exact hmem x (List.mem_cons_of_mem _ hx)

end Ced.PlainRegex

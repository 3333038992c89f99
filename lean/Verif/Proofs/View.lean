import Verif.Spec.View
import Verif.Proofs.Range

/-! # Lemmas on views -/

namespace Ced
open Spec

theorem strLt_irrefl (a : Str) : strLt a a = false := by
  induction a with
  | nil => rfl
  | cons c a ih => simp [strLt, ih]

theorem char_eq_of_val {a b : Char} (h1 : ¬ a.val < b.val) (h2 : ¬ b.val < a.val) : a = b := by
  apply Char.ext
  rw [UInt32.lt_iff_toNat_lt] at h1 h2
  exact UInt32.toNat_inj.1 (by omega)

theorem strLt_tri (a b : Str) : strLt a b = true ∨ a = b ∨ strLt b a = true := by
  induction a generalizing b with
  | nil => cases b <;> simp [strLt]
  | cons c a ih =>
    cases b with
    | nil => simp [strLt]
    | cons d b =>
      by_cases h : c.val < d.val
      · left; simp [strLt, h]
      · by_cases h2 : d.val < c.val
        · right; right; simp [strLt, h2]
        · have e := char_eq_of_val h h2
          subst e
          rcases ih b with h3 | h3 | h3
          · left; simp [strLt, h3]
          · right; left; rw [h3]
          · right; right; simp [strLt, h3]

theorem strLt_trans {a b c : Str} (h1 : strLt a b = true) (h2 : strLt b c = true) : strLt a c = true := by
  induction a generalizing b c with
  | nil =>
    cases b with
    | nil => simp [strLt] at h1
    | cons y b =>
      cases c with
      | nil => simp [strLt] at h2
      | cons z c => rfl
  | cons x a ih =>
    cases b with
    | nil => simp [strLt] at h1
    | cons y b =>
      cases c with
      | nil => simp [strLt] at h2
      | cons z c =>
        simp only [strLt] at h1 h2 ⊢
        by_cases hxy : x.val < y.val
        · by_cases hyz : y.val < z.val
          · rw [if_pos (by rw [UInt32.lt_iff_toNat_lt] at *; omega)]
          · rw [if_neg hyz] at h2
            split at h2
            · rename_i e; subst e; rw [if_pos hxy]
            · cases h2
        · rw [if_neg hxy] at h1
          split at h1
          · rename_i e; subst e
            by_cases hyz : x.val < z.val
            · rw [if_pos hyz]
            · rw [if_neg hyz] at h2 ⊢
              split at h2
              · rename_i e; rw [if_pos e]; exact ih h1 h2
              · cases h2
          · cases h1

theorem isLess_iff (a b : Focus) : a.isLess b = true ↔ ¬ FocusLe b a := by
  cases a <;> cases b <;> simp [Focus.isLess, FocusLe]
  rename_i a b c d
  by_cases h : a = c
  · simp [h]
  · simp [h]; omega

theorem focusLe_trans (a b c : Focus) (h1 : FocusLe a b) (h2 : FocusLe b c) : FocusLe a c := by
  cases a <;> cases b <;> cases c <;> simp_all [FocusLe]
  omega

theorem focusLe_total (a b : Focus) : FocusLe a b ∨ FocusLe b a := by
  cases a <;> cases b <;> simp [FocusLe]
  omega

theorem notLess_iff (a b : Focus) : (!(b.isLess a)) = true ↔ FocusLe a b := by
  have := isLess_iff b a
  cases h : b.isLess a
  · simp [h] at this; simp [this]
  · simp [h] at this; simp [this]

theorem insertSorted_perm (f : Focus) (g : LensGroup) : (LensGroup.insertSorted f g).Perm (f :: g) := by
  induction g with
  | nil => exact List.Perm.refl _
  | cons x g ih =>
    unfold LensGroup.insertSorted
    split
    · exact (ih.cons x).trans (List.Perm.swap f x g)
    · exact List.Perm.refl _

theorem insertSorted_sorted (f : Focus) {g : LensGroup} (h : g.Pairwise FocusLe) :
    (LensGroup.insertSorted f g).Pairwise FocusLe := by
  induction g with
  | nil => exact List.pairwise_singleton _ _
  | cons x g ih =>
    have hs := List.pairwise_cons.1 h
    unfold LensGroup.insertSorted
    split
    · rename_i hlt
      refine List.pairwise_cons.2 ⟨?_, ih hs.2⟩
      intro y hy
      rcases List.mem_cons.1 ((insertSorted_perm f g).mem_iff.1 hy) with rfl | hy
      · rcases focusLe_total x y with h | h
        · exact h
        · exact absurd h ((isLess_iff x y).1 hlt)
      · exact hs.1 y hy
    · rename_i hlt
      have hfx : FocusLe f x := (notLess_iff f x).1 (by simpa using hlt)
      refine List.pairwise_cons.2 ⟨?_, h⟩
      intro y hy
      rcases List.mem_cons.1 hy with rfl | hy
      · exact hfx
      · exact focusLe_trans _ _ _ hfx (hs.1 y hy)

theorem sort_perm (g : LensGroup) : (LensGroup.sort g).Perm g := by
  induction g with
  | nil => exact List.Perm.refl _
  | cons f g ih => exact (insertSorted_perm f _).trans (ih.cons f)

theorem sort_sorted (g : LensGroup) : (LensGroup.sort g).Pairwise FocusLe := by
  induction g with
  | nil => exact List.Pairwise.nil
  | cons f g ih => exact insertSorted_sorted f ih

theorem group_add_sorted (g : LensGroup) (f : Focus) : (LensGroup.add g f).Pairwise FocusLe := sort_sorted _

theorem group_add_perm (g : LensGroup) (f : Focus) : (LensGroup.add g f).Perm (g ++ [f]) := sort_perm _

theorem group_add_ne (g : LensGroup) (f : Focus) : LensGroup.add g f ≠ [] := by
  intro h
  have := (group_add_perm g f).length_eq
  rw [h] at this; simp at this

namespace View

/-- the focuses of a buffer in a view -/
def groupOf (v : View) (b : Str) : LensGroup := ((v.find? fun bg => bg.1 = b).map Prod.snd).getD []

/-- names in order, no empty group -/
structure WF (v : View) : Prop where
  sorted : v.Pairwise fun x y => strLt x.1 y.1 = true
  groups : ∀ bg ∈ v, bg.2 ≠ []

theorem wf_nil : WF [] := ⟨List.Pairwise.nil, by simp⟩

theorem mem_addLens {v : View} {b : Str} {f : Focus} {x : Str × LensGroup} (h : x ∈ v.addLens b f) :
    x.1 = b ∨ x ∈ v := by
  induction v with
  | nil => simp [addLens] at h; left; rw [h]
  | cons bg rest ih =>
    obtain ⟨b', g⟩ := bg
    simp only [addLens] at h
    split at h
    · rename_i e
      rcases List.mem_cons.1 h with h | h
      · left; rw [h]; exact e
      · right; exact List.mem_cons_of_mem _ h
    · split at h
      · rcases List.mem_cons.1 h with h | h
        · left; rw [h]
        · right; exact h
      · rcases List.mem_cons.1 h with h | h
        · right; rw [h]; exact List.mem_cons_self
        · rcases ih h with h | h
          · exact Or.inl h
          · exact Or.inr (List.mem_cons_of_mem _ h)

theorem wf_addLens {v : View} (h : WF v) (b : Str) (f : Focus) : WF (v.addLens b f) := by
  induction v with
  | nil => exact ⟨by simp [addLens], by intro bg hb; simp [addLens] at hb; rw [hb]; exact group_add_ne _ _⟩
  | cons bg rest ih =>
    obtain ⟨b', g⟩ := bg
    have hs := List.pairwise_cons.1 h.sorted
    have hr : WF rest := ⟨hs.2, fun x hx => h.groups x (List.mem_cons_of_mem _ hx)⟩
    simp only [addLens]
    split
    · refine ⟨List.pairwise_cons.2 ⟨hs.1, hs.2⟩, ?_⟩
      intro x hx
      rcases List.mem_cons.1 hx with rfl | hx
      · exact group_add_ne _ _
      · exact hr.groups x hx
    · rename_i hne
      split
      · rename_i hlt
        refine ⟨List.pairwise_cons.2 ⟨?_, h.sorted⟩, ?_⟩
        · intro x hx
          rcases List.mem_cons.1 hx with rfl | hx
          · exact hlt
          · exact strLt_trans hlt (hs.1 x hx)
        · intro x hx
          rcases List.mem_cons.1 hx with rfl | hx
          · exact group_add_ne _ _
          · exact h.groups x hx
      · rename_i hlt
        have hlt' : strLt b' b = true := by
          rcases strLt_tri b' b with h | h | h
          · exact h
          · exact absurd h hne
          · exact absurd h hlt
        have ihr := ih hr
        refine ⟨List.pairwise_cons.2 ⟨?_, ihr.sorted⟩, ?_⟩
        · intro x hx
          rcases mem_addLens hx with h | h
          · rw [h]; exact hlt'
          · exact hs.1 x h
        · intro x hx
          rcases List.mem_cons.1 hx with rfl | hx
          · exact h.groups _ List.mem_cons_self
          · exact ihr.groups x hx

theorem groupOf_cons (b b' : Str) (g : LensGroup) (rest : View) :
    groupOf ((b', g) :: rest) b = if b' = b then g else groupOf rest b := by
  unfold groupOf
  by_cases h : b' = b
  · subst h; simp
  · rw [List.find?_cons_of_neg (by simpa using h), if_neg h]

theorem groupOf_absent {v : View} {b : Str} (h : ∀ x ∈ v, x.1 ≠ b) : groupOf v b = [] := by
  unfold groupOf
  rw [List.find?_eq_none.2 (by intro x hx; simpa using h x hx)]
  rfl

theorem groupOf_addLens {v : View} (h : WF v) (b b' : Str) (f : Focus) :
    groupOf (v.addLens b f) b' = if b = b' then (groupOf v b).add f else groupOf v b' := by
  induction v with
  | nil =>
    simp only [addLens, groupOf_cons]
    rfl
  | cons bg rest ih =>
    obtain ⟨b2, g⟩ := bg
    have hs := List.pairwise_cons.1 h.sorted
    have hr : WF rest := ⟨hs.2, fun x hx => h.groups x (List.mem_cons_of_mem _ hx)⟩
    simp only [addLens]
    split
    · rename_i e
      subst e
      rw [groupOf_cons, groupOf_cons, if_pos rfl]
      by_cases h2 : b2 = b'
      · simp [h2]
      · simp [h2, groupOf_cons]
    · rename_i hne
      split
      · rename_i hlt
        have hab : groupOf ((b2, g) :: rest) b = [] := groupOf_absent (by
          intro x hx
          rcases List.mem_cons.1 hx with rfl | hx
          · exact hne
          · intro e
            have := hs.1 x hx
            have h3 := strLt_trans hlt this
            rw [e, strLt_irrefl] at h3; cases h3)
        rw [groupOf_cons, hab]
      · rw [groupOf_cons, ih hr, groupOf_cons, groupOf_cons, if_neg hne]
        by_cases h2 : b2 = b'
        · subst h2; rw [if_pos rfl, if_neg (Ne.symm hne)]; simp
        · simp [h2]

theorem wf_remove {v : View} (h : WF v) (b : Str) : WF (v.removeLensGroup b) :=
  ⟨h.sorted.filter _, fun x hx => h.groups x ((List.mem_filter.1 hx).1)⟩

theorem groupOf_remove (v : View) (b b' : Str) :
    groupOf (v.removeLensGroup b) b' = if b' = b then [] else groupOf v b' := by
  induction v with
  | nil => simp [removeLensGroup, groupOf]
  | cons bg rest ih =>
    obtain ⟨b2, g⟩ := bg
    unfold removeLensGroup at ih ⊢
    by_cases h : b2 = b
    · rw [List.filter_cons_of_neg (by simpa using h), ih, groupOf_cons]
      by_cases h2 : b' = b
      · simp [h2]
      · rw [if_neg h2, if_neg h2, if_neg (by rw [h]; exact Ne.symm h2)]
    · rw [List.filter_cons_of_pos (by simpa using h), groupOf_cons, groupOf_cons, ih]
      by_cases h2 : b' = b
      · subst h2; simp [h]
      · simp [h2]

theorem wf_nodup {v : View} (h : WF v) : v.buffers.Nodup := by
  unfold buffers
  rw [List.Nodup, List.pairwise_map]
  exact h.sorted.imp (by intro a b hab e; rw [e, strLt_irrefl] at hab; cases hab)

theorem mem_groupOf {v : View} (h : WF v) {b : Str} {g : LensGroup} (hm : (b, g) ∈ v) : groupOf v b = g := by
  induction v with
  | nil => cases hm
  | cons bg rest ih =>
    obtain ⟨b2, g2⟩ := bg
    have hs := List.pairwise_cons.1 h.sorted
    rw [groupOf_cons]
    rcases List.mem_cons.1 hm with e | e
    · cases e; simp
    · rw [if_neg]
      · exact ih ⟨hs.2, fun x hx => h.groups x (List.mem_cons_of_mem _ hx)⟩ e
      · intro e'
        have := hs.1 _ e
        rw [e', strLt_irrefl] at this; cases this

theorem mem_buffers_iff {v : View} (h : WF v) (b : Str) : b ∈ v.buffers ↔ groupOf v b ≠ [] := by
  constructor
  · intro hb
    simp only [buffers, List.mem_map] at hb
    obtain ⟨⟨b', g⟩, hm, rfl⟩ := hb
    rw [mem_groupOf h hm]; exact h.groups _ hm
  · intro hg
    by_cases hb : b ∈ v.buffers
    · exact hb
    · exfalso
      exact hg (groupOf_absent (by intro x hx e; exact hb (List.mem_map.2 ⟨x, hx, e⟩)))

theorem contains_iff {v : View} (b : Str) : v.containsBuffer b = true ↔ b ∈ v.buffers := by
  simp [containsBuffer, buffers]

end View

/-! ### Identifiers -/

theorem decimal_inj {a b : Nat} (h : Focus.decimal a = Focus.decimal b) : a = b := by
  unfold Focus.decimal at h
  have h1 := Nat.ofDigitChars_ten_toDigits (n := a)
  rw [h, Nat.ofDigitChars_ten_toDigits] at h1
  exact h1.symm

theorem decimal_digit {a : Nat} {c : Char} (h : c ∈ Focus.decimal a) : c.isDigit = true :=
  Nat.isDigit_of_mem_toDigits (by omega) (by omega) h

theorem decimal_ne (a : Nat) : Focus.decimal a ≠ [] := Nat.toDigits_ne_nil

/-- two words followed by a character neither contains -/
theorem split_at {c : Char} {a b x y : List Char} (ha : c ∉ a) (hb : c ∉ b)
    (h : a ++ c :: x = b ++ c :: y) : a = b ∧ x = y := by
  induction a generalizing b with
  | nil =>
    cases b with
    | nil => simpa using h
    | cons d b => simp at h; exact absurd (by simp [h.1]) hb
  | cons e a ih =>
    cases b with
    | nil => simp at h; exact absurd (by simp [h.1]) ha
    | cons d b =>
      simp only [List.cons_append, List.cons.injEq] at h
      obtain ⟨h1, h2⟩ := ih (fun hh => ha (by simp [hh])) (fun hh => hb (by simp [hh])) h.2
      exact ⟨by rw [h.1, h1], h2⟩

theorem display_inj {f g : Focus} (h : f.display = g.display) : f = g := by
  cases f <;> cases g
  · rename_i a b c d
    simp only [Focus.display, List.append_assoc, List.cons_append, List.nil_append] at h
    have hdot : ∀ n, '.' ∉ Focus.decimal n := by
      intro n hn; have := decimal_digit hn; revert this; decide
    obtain ⟨h1, h2⟩ := split_at (hdot a) (hdot c) h
    simp only [List.cons.injEq, true_and] at h2
    rw [decimal_inj h1, decimal_inj h2]
  · rename_i a b
    simp only [Focus.display] at h
    have hx : '*' ∈ Focus.decimal a ++ ['.', '.'] ++ Focus.decimal b := by rw [h]; simp
    simp only [List.mem_append, List.mem_cons, List.not_mem_nil, or_false] at hx
    exfalso
    rcases hx with (hx | hx) | hx
    · have := decimal_digit hx; revert this; decide
    · revert hx; decide
    · have := decimal_digit hx; revert this; decide
  · rename_i a b
    simp only [Focus.display] at h
    have hx : '*' ∈ Focus.decimal a ++ ['.', '.'] ++ Focus.decimal b := by rw [← h]; simp
    simp only [List.mem_append, List.mem_cons, List.not_mem_nil, or_false] at hx
    exfalso
    rcases hx with (hx | hx) | hx
    · have := decimal_digit hx; revert this; decide
    · revert hx; decide
    · have := decimal_digit hx; revert this; decide
  · rfl

theorem display_chars {f : Focus} {c : Char} (h : c ∈ f.display) : c.isDigit = true ∨ c = '.' ∨ c = '*' := by
  cases f with
  | whole => simp [Focus.display] at h; exact Or.inr (Or.inr h)
  | range a b =>
    simp only [Focus.display, List.mem_append, List.mem_cons, List.not_mem_nil, or_false] at h
    rcases h with (h | h) | h
    · exact Or.inl (decimal_digit h)
    · right; left; simpa using h
    · exact Or.inl (decimal_digit h)

theorem display_ne (f : Focus) : f.display ≠ [] := by
  cases f <;> simp [Focus.display]

theorem display_comma (f : Focus) : ',' ∉ f.display := by
  intro h; rcases display_chars h with h | h | h <;> revert h <;> decide

theorem display_brace (f : Focus) : '}' ∉ f.display := by
  intro h; rcases display_chars h with h | h | h <;> revert h <;> decide

theorem join_cons (sep s : Str) (ss : List Str) (h : ss ≠ []) : View.join sep (s :: ss) = s ++ sep ++ View.join sep ss := by
  cases ss with
  | nil => exact absurd rfl h
  | cons _ _ => rfl

theorem join_focus_inj {xs ys : List Focus}
    (h : View.join [','] (xs.map Focus.display) = View.join [','] (ys.map Focus.display)) : xs = ys := by
  induction xs generalizing ys with
  | nil =>
    cases ys with
    | nil => rfl
    | cons y ys =>
      exfalso
      cases ys with
      | nil => exact display_ne y h.symm
      | cons z zs =>
        rw [List.map_cons, join_cons _ _ _ (by simp)] at h
        simp [View.join] at h
  | cons x xs ih =>
    cases ys with
    | nil =>
      exfalso
      cases xs with
      | nil => exact display_ne x h
      | cons z zs =>
        rw [List.map_cons, join_cons _ _ _ (by simp)] at h
        simp [View.join] at h
    | cons y ys =>
      by_cases hx : xs = []
      · by_cases hy : ys = []
        · subst hx hy; simp [View.join] at h; rw [display_inj h]
        · exfalso
          subst hx
          rw [List.map_cons (l := ys), join_cons _ _ _ (by simpa using hy)] at h
          have : ',' ∈ x.display := by
            show ',' ∈ View.join [','] [x.display]
            simp only [List.map_cons, List.map_nil] at h
            rw [h]; simp
          exact display_comma x this
      · by_cases hy : ys = []
        · exfalso
          subst hy
          rw [List.map_cons (l := xs), join_cons _ _ _ (by simpa using hx)] at h
          have : ',' ∈ y.display := by
            show ',' ∈ View.join [','] [y.display]
            simp only [List.map_cons, List.map_nil] at h
            rw [← h]; simp
          exact display_comma y this
        · rw [List.map_cons, List.map_cons, join_cons _ _ _ (by simpa using hx), join_cons _ _ _ (by simpa using hy)] at h
          simp only [List.append_assoc, List.cons_append, List.nil_append] at h
          obtain ⟨h1, h2⟩ := split_at (display_comma x) (display_comma y) h
          rw [display_inj h1, ih h2]

theorem join_focus_brace (xs : List Focus) : '}' ∉ View.join [','] (xs.map Focus.display) := by
  induction xs with
  | nil => simp [View.join]
  | cons x xs ih =>
    by_cases hx : xs = []
    · subst hx; exact display_brace x
    · rw [List.map_cons, join_cons _ _ _ (by simpa using hx)]
      simp only [List.mem_append, List.mem_cons, List.not_mem_nil, or_false, not_or]
      exact ⟨⟨display_brace x, by decide⟩, ih⟩

theorem key_cons (bg : Str × LensGroup) (v : View) :
    View.key (bg :: v) = bg.1 ++ '{' :: (View.join [','] (bg.2.map Focus.display) ++ '}' ::
      (if v = [] then [] else '|' :: View.key v)) := by
  unfold View.key
  rw [List.map_cons]
  by_cases h : v = []
  · subst h; simp [View.join]
  · rw [join_cons _ _ _ (by simpa using h), if_neg h]
    simp

theorem key_inj {v w : View} (hv : ∀ b ∈ v.buffers, '{' ∉ b) (hw : ∀ b ∈ w.buffers, '{' ∉ b)
    (h : v.key = w.key) : v = w := by
  induction v generalizing w with
  | nil =>
    cases w with
    | nil => rfl
    | cons y w =>
      exfalso
      rw [key_cons] at h
      simp [View.key, View.join] at h
  | cons x v ih =>
    cases w with
    | nil =>
      exfalso
      rw [key_cons] at h
      simp [View.key, View.join] at h
    | cons y w =>
      rw [key_cons, key_cons] at h
      obtain ⟨h1, h2⟩ := split_at (hv x.1 (by simp [View.buffers])) (hw y.1 (by simp [View.buffers])) h
      obtain ⟨h3, h4⟩ := split_at (join_focus_brace x.2) (join_focus_brace y.2) h2
      have h5 := join_focus_inj h3
      have hxy : x = y := Prod.ext h1 h5
      rw [hxy]
      congr 1
      have hv' : ∀ b ∈ View.buffers v, '{' ∉ b := fun b hb => hv b (by simp [View.buffers] at hb ⊢; exact Or.inr hb)
      have hw' : ∀ b ∈ View.buffers w, '{' ∉ b := fun b hb => hw b (by simp [View.buffers] at hb ⊢; exact Or.inr hb)
      by_cases hv0 : v = []
      · by_cases hw0 : w = []
        · rw [hv0, hw0]
        · rw [if_pos hv0, if_neg hw0] at h4; cases h4
      · by_cases hw0 : w = []
        · rw [if_neg hv0, if_pos hw0] at h4; cases h4
        · rw [if_neg hv0, if_neg hw0] at h4
          simp only [List.cons.injEq, true_and] at h4
          exact ih hv' hw' h4

end Ced

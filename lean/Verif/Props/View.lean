import Verif.Spec.View
import Verif.Proofs.View
import Verif.Proofs.Highlight
import Verif.Props.Coords

/-! # Views: identifiers, items, highlighting (C24, C26, C27) -/

namespace Ced.Props
open Spec PieceTable

/-- A view after changes. -/
def runLens (ops : List LensOp) : View :=
  ops.foldl (fun v op => match op with
    | .add b f => v.addLens b f
    | .remove b => v.removeLensGroup b) []

/-- the focuses kept for a buffer -/
def kept (ls : List (Str × Focus)) (b : Str) : List Focus := (ls.filter fun l => l.1 = b).map Prod.snd

/-- what a view keeps of the lenses added to it -/
structure Keeps (v : View) (ls : List (Str × Focus)) : Prop where
  wf : View.WF v
  perm : ∀ b, (View.groupOf v b).Perm (kept ls b)
  sorted : ∀ b, (View.groupOf v b).Pairwise FocusLe

theorem kept_append (ls ls' : List (Str × Focus)) (b : Str) : kept (ls ++ ls') b = kept ls b ++ kept ls' b := by
  simp [kept]

theorem kept_one (b b' : Str) (f : Focus) : kept [(b, f)] b' = if b = b' then [f] else [] := by
  unfold kept; by_cases h : b = b' <;> simp [h]

theorem kept_remove (ls : List (Str × Focus)) (b b' : Str) :
    kept (ls.filter fun l => l.1 ≠ b) b' = if b' = b then [] else kept ls b' := by
  unfold kept
  rw [List.filter_filter]
  by_cases h : b' = b
  · subst h
    rw [if_pos rfl, List.filter_eq_nil_iff.2 (by intro x _; simp)]; rfl
  · rw [if_neg h]
    congr 1
    apply List.filter_congr
    intro x _
    by_cases hx : x.1 = b'
    · simp [hx, h]
    · simp [hx]

theorem keeps_add {v : View} {ls : List (Str × Focus)} (h : Keeps v ls) (b : Str) (f : Focus) :
    Keeps (v.addLens b f) (ls ++ [(b, f)]) := by
  refine ⟨View.wf_addLens h.wf b f, ?_, ?_⟩
  · intro b'
    rw [View.groupOf_addLens h.wf, kept_append, kept_one]
    by_cases e : b = b'
    · subst e
      rw [if_pos rfl, if_pos rfl]
      exact (group_add_perm _ f).trans ((h.perm b).append_right _)
    · rw [if_neg e, if_neg e, List.append_nil]; exact h.perm b'
  · intro b'
    rw [View.groupOf_addLens h.wf]
    split
    · exact group_add_sorted _ f
    · exact h.sorted b'

theorem keeps_remove {v : View} {ls : List (Str × Focus)} (h : Keeps v ls) (b : Str) :
    Keeps (v.removeLensGroup b) (ls.filter fun l => l.1 ≠ b) := by
  refine ⟨View.wf_remove h.wf b, ?_, ?_⟩
  · intro b'
    rw [View.groupOf_remove, kept_remove]
    split
    · exact List.Perm.refl _
    · exact h.perm b'
  · intro b'
    rw [View.groupOf_remove]
    split
    · exact List.Pairwise.nil
    · exact h.sorted b'

theorem keeps_run (ops : List LensOp) : Keeps (runLens ops) (lensesAfter ops) := by
  unfold runLens lensesAfter
  have key : ∀ (ops : List LensOp) (v : View) (ls : List (Str × Focus)), Keeps v ls →
      Keeps (ops.foldl (fun v op => match op with
        | .add b f => v.addLens b f
        | .remove b => v.removeLensGroup b) v)
      (ops.foldl (fun ls op => match op with
        | .add b f => ls ++ [(b, f)]
        | .remove b => ls.filter fun l => l.1 ≠ b) ls) := by
    intro ops
    induction ops with
    | nil => intro v ls h; exact h
    | cons op ops ih =>
      intro v ls h
      rw [List.foldl_cons, List.foldl_cons]
      cases op with
      | add b f => exact ih _ _ (keeps_add h b f)
      | remove b => exact ih _ _ (keeps_remove h b)
  exact key ops [] [] ⟨View.wf_nil, fun b => List.Perm.refl _, fun b => List.Pairwise.nil⟩

theorem focusLe_antisymm {a b : Focus} (h1 : FocusLe a b) (h2 : FocusLe b a) : a = b := by
  cases a <;> cases b <;> simp_all [FocusLe]
  omega

theorem view_ext {v w : View} (hv : View.WF v) (hw : View.WF w) (h : ∀ b, View.groupOf v b = View.groupOf w b) :
    v = w := by
  induction v generalizing w with
  | nil =>
    cases w with
    | nil => rfl
    | cons y w =>
      exfalso
      have := h y.1
      rw [View.groupOf_cons, if_pos rfl] at this
      exact hw.groups y (by simp) this.symm
  | cons x v ih =>
    cases w with
    | nil =>
      exfalso
      have := h x.1
      rw [View.groupOf_cons, if_pos rfl] at this
      exact hv.groups x (by simp) this
    | cons y w =>
      obtain ⟨b, g⟩ := x
      obtain ⟨b', g'⟩ := y
      have sv := List.pairwise_cons.1 hv.sorted
      have sw := List.pairwise_cons.1 hw.sorted
      have absent : ∀ {c : Str} {u : View}, (∀ x ∈ u, strLt c x.1 = true) → View.groupOf u c = [] := by
        intro c u hu
        exact View.groupOf_absent (by
          intro x hx e; have := hu x hx; rw [e, strLt_irrefl] at this; cases this)
      have hb : b = b' := by
        rcases strLt_tri b b' with hlt | e | hlt
        · exfalso
          have := h b
          rw [View.groupOf_cons, if_pos rfl, View.groupOf_cons, if_neg (by
            intro e; rw [e, strLt_irrefl] at hlt; cases hlt), absent (fun x hx => strLt_trans hlt (sw.1 x hx))] at this
          exact hv.groups (b, g) (by simp) this
        · exact e
        · exfalso
          have := h b'
          rw [View.groupOf_cons, View.groupOf_cons, if_pos rfl, if_neg (by
            intro e; rw [e, strLt_irrefl] at hlt; cases hlt), absent (fun x hx => strLt_trans hlt (sv.1 x hx))] at this
          exact hw.groups (b', g') (by simp) this.symm
      subst hb
      have hg := h b
      rw [View.groupOf_cons, View.groupOf_cons, if_pos rfl, if_pos rfl] at hg
      subst hg
      congr 1
      refine ih ⟨sv.2, fun x hx => hv.groups x (by simp [hx])⟩ ⟨sw.2, fun x hx => hw.groups x (by simp [hx])⟩ ?_
      intro c
      by_cases e : b = c
      · subst e; rw [absent sv.1, absent sw.1]
      · have := h c
        rw [View.groupOf_cons, View.groupOf_cons, if_neg e, if_neg e] at this
        exact this

theorem kept_perm {ls ls' : List (Str × Focus)} : ls.Perm ls' ↔ ∀ b, (kept ls b).Perm (kept ls' b) := by
  constructor
  · intro h b; exact (h.filter _).map _
  · intro h
    rw [List.perm_iff_count]
    intro ⟨b, f⟩
    have hc : ∀ l : List (Str × Focus), l.count (b, f) = (kept l b).count f := by
      intro l
      unfold kept
      induction l with
      | nil => rfl
      | cons x l ih =>
        obtain ⟨b', f'⟩ := x
        rw [List.count_cons, ih]
        by_cases e : b' = b
        · subst e
          rw [List.filter_cons_of_pos (by simp), List.map_cons, List.count_cons]
          simp
        · rw [List.filter_cons_of_neg (by simpa using e)]
          simp [e]
    rw [hc, hc]
    exact (h b).count_eq f

/-! ## C26 -/

/-- C26: two views have the same identifier exactly if they have the same lenses (in whatever order they were
added), for names without `{`. -/
theorem C26_key (ops ops' : List LensOp) (h : ∀ l ∈ lensesAfter ops ++ lensesAfter ops', '{' ∉ l.1) :
    (runLens ops).key = (runLens ops').key ↔ (lensesAfter ops).Perm (lensesAfter ops') := by
  have k := keeps_run ops
  have k' := keeps_run ops'
  have clean : ∀ ops, (∀ l ∈ lensesAfter ops, '{' ∉ l.1) → ∀ b ∈ (runLens ops).buffers, '{' ∉ b := by
    intro ops h b hb
    have k := keeps_run ops
    rw [View.mem_buffers_iff k.wf] at hb
    have hk : kept (lensesAfter ops) b ≠ [] := by
      intro e
      have := k.perm b
      rw [e, List.perm_nil] at this
      exact hb this
    obtain ⟨f, hf⟩ := List.exists_mem_of_ne_nil _ hk
    simp only [kept, List.mem_map, List.mem_filter] at hf
    obtain ⟨l, ⟨hl, e⟩, _⟩ := hf
    have := h l hl
    simp at e
    rwa [e] at this
  constructor
  · intro e
    have := key_inj (clean ops fun l hl => h l (by simp [hl])) (clean ops' fun l hl => h l (by simp [hl])) e
    rw [kept_perm]
    intro b
    exact ((k.perm b).symm.trans (by rw [this])).trans (k'.perm b)
  · intro hp
    have : runLens ops = runLens ops' := by
      refine view_ext k.wf k'.wf fun b => ?_
      refine List.Perm.eq_of_pairwise ?_ (k.sorted b) (k'.sorted b) ((k.perm b).trans ((kept_perm.1 hp b).trans (k'.perm b).symm))
      intro a c _ _ h1 h2; exact focusLe_antisymm h1 h2
    rw [this]

/-- a non-trivial case: the same lenses added in another order, after a removal -/
example : (runLens [.add ['b'] (.range 3 5), .add ['a'] .whole, .add ['b'] (.range 1 2)]).key =
    (runLens [.add ['c'] .whole, .add ['b'] (.range 1 2), .remove ['c'], .add ['b'] (.range 3 5), .add ['a'] .whole]).key := by
  rw [C26_key _ _ (by decide)]; decide

/-- C26: names with the separators collide: the buffer named `a{*}|b` and the two buffers `a` and `b`. -/
theorem C26_collision :
    (View.forBuffer ['a', '{', '*', '}', '|', 'b']).key = (runLens [.add ['a'] .whole, .add ['b'] .whole]).key ∧
      (View.forBuffer ['a', '{', '*', '}', '|', 'b']).buffers ≠ (runLens [.add ['a'] .whole, .add ['b'] .whole]).buffers := by
  decide

/-! ## C27 -/

/-- C27: for every sequence of additions and removals, the items of the view are those of the lenses that remain. -/
theorem C27_items (ops : List LensOp) :
    ∃ items, (runLens ops).asVec = .ok items ∧ IsItems (lensesAfter ops) items := by
  have k := keeps_run ops
  revert k
  generalize runLens ops = v
  generalize lensesAfter ops = ls
  intro k
  -- the focus of a group
  have hfocus : ∀ g : LensGroup, g ≠ [] → g.Pairwise FocusLe → ∃ f, g.focus = .ok f ∧ (f = .whole ↔ Focus.whole ∈ g) ∧
      ∀ a b, f = .range a b → (∃ x, g.head? = some (.range a x)) ∧ ∃ y, g.getLast? = some (.range y b) := by
    intro g hg hs
    obtain ⟨x, xs, rfl⟩ := List.exists_cons_of_ne_nil hg
    obtain ⟨y, hy⟩ : ∃ y, (x :: xs).getLast? = some y := by
      rw [← Option.isSome_iff_exists]; simp
    have hym : y ∈ x :: xs := List.mem_of_getLast? hy
    have hlast : ∀ z ∈ x :: xs, z = y ∨ FocusLe z y := by
      intro z hz
      obtain ⟨ys, e⟩ := List.getLast?_eq_some_iff.1 hy
      rw [e] at hz hs
      rcases List.mem_append.1 hz with hz | hz
      · right
        exact (List.pairwise_append.1 hs).2.2 z hz y (by simp)
      · left; simpa using hz
    have hfirst : ∀ z ∈ x :: xs, z = x ∨ FocusLe x z := by
      intro z hz
      rcases List.mem_cons.1 hz with hz | hz
      · exact Or.inl hz
      · exact Or.inr ((List.pairwise_cons.1 hs).1 z hz)
    unfold LensGroup.focus
    rw [hy]
    simp only [List.head?_cons, unwrapR, except_bind_ok]
    cases x with
    | whole => exact ⟨_, rfl, by simp, by simp⟩
    | range a b =>
      cases y with
      | whole => exact ⟨_, rfl, by simp [hym], by simp⟩
      | range c d =>
        refine ⟨_, rfl, ?_, ?_⟩
        · simp only [reduceCtorEq, false_iff]
          intro hw
          rcases hlast _ hw with h | h
          · cases h
          · exact h
        · intro a' b' e
          cases e
          exact ⟨⟨b, rfl⟩, ⟨c, rfl⟩⟩
  have hg : ∀ bg ∈ v, bg.2.Pairwise FocusLe := by
    intro bg hbg
    have := View.mem_groupOf k.wf (b := bg.1) (g := bg.2) hbg
    rw [← this]; exact k.sorted _
  -- the lenses
  have hperm : (v.flatMap fun bg => bg.2.map fun f => (bg.1, f)).Perm ls := by
    rw [kept_perm]
    intro b
    have : kept (v.flatMap fun bg => bg.2.map fun f => (bg.1, f)) b = View.groupOf v b := by
      have key : ∀ v : View, View.WF v → kept (v.flatMap fun bg => bg.2.map fun f => (bg.1, f)) b = View.groupOf v b := by
        intro v hv
        induction v with
        | nil => rfl
        | cons x v ih =>
          obtain ⟨b', g⟩ := x
          have sv := List.pairwise_cons.1 hv.sorted
          have ih := ih ⟨sv.2, fun x hx => hv.groups x (by simp [hx])⟩
          rw [List.flatMap_cons, kept_append, ih, View.groupOf_cons]
          have hm : kept (g.map fun f => (b', f)) b = if b' = b then g else [] := by
            unfold kept
            by_cases e : b' = b
            · subst e
              rw [if_pos rfl, List.filter_eq_self.2 (by simp), List.map_map]
              simp [Function.comp_def]
            · rw [if_neg e, List.filter_eq_nil_iff.2 (by simp [e])]; rfl
          rw [hm]
          by_cases e : b' = b
          · subst e
            rw [if_pos rfl, if_pos rfl, View.groupOf_absent, List.append_nil]
            intro x hx e
            have := sv.1 x hx
            rw [e, strLt_irrefl] at this; cases this
          · rw [if_neg e, if_neg e]; rfl
      exact key v k.wf
    rw [this]; exact k.perm b
  -- all the groups
  have hmap : ∃ groups : List (Str × Focus × List Focus),
      (v.mapM fun bg => do
        let f ← LensGroup.focus bg.2
        return ViewItem.header bg.1 f :: bg.2.map (ViewItem.lens bg.1)) =
        .ok (groups.map fun g => .header g.1 g.2.1 :: g.2.2.map (.lens g.1)) ∧
      groups.map (fun g => (g.1, g.2.2)) = v ∧
      ∀ g ∈ groups, (g.2.1 = .whole ↔ Focus.whole ∈ g.2.2) ∧
        ∀ a b, g.2.1 = .range a b →
          (∃ x, g.2.2.head? = some (.range a x)) ∧ ∃ y, g.2.2.getLast? = some (.range y b) := by
    have hne := k.wf.groups
    clear hperm k
    induction v with
    | nil => exact ⟨[], rfl, rfl, by simp⟩
    | cons bg v ih =>
      obtain ⟨groups, e1, e2, e3⟩ := ih (fun x hx => hg x (by simp [hx])) (fun x hx => hne x (by simp [hx]))
      obtain ⟨f, ef, hf1, hf2⟩ := hfocus bg.2 (hne bg (by simp)) (hg bg (by simp))
      refine ⟨(bg.1, f, bg.2) :: groups, ?_, by simp [e2], ?_⟩
      · rw [List.mapM_cons, ef, e1]; rfl
      · intro g hg
        rcases List.mem_cons.1 hg with rfl | hg
        · exact ⟨hf1, hf2⟩
        · exact e3 g hg
  obtain ⟨groups, e1, e2, e3⟩ := hmap
  refine ⟨_, by unfold View.asVec; rw [e1]; rfl, groups, by simp [List.flatMap], ?_, ?_, ?_, e3⟩
  · rw [List.pairwise_map]
    have := k.wf.sorted
    rw [← e2, List.pairwise_map] at this
    exact this
  · intro g hgm
    have : (g.1, g.2.2) ∈ v := by rw [← e2]; exact List.mem_map.2 ⟨g, hgm, rfl⟩
    exact ⟨k.wf.groups _ this, hg _ this⟩
  · have : (groups.flatMap fun g => g.2.2.map fun f => (g.1, f)) = v.flatMap fun bg => bg.2.map fun f => (bg.1, f) := by
      rw [← e2, List.flatMap_map]
    rw [this]; exact hperm

example : (runLens [.add ['b'] (.range 3 5), .add ['a'] .whole, .add ['b'] (.range 1 2)]).asVec = .ok
    [.header ['a'] .whole, .lens ['a'] .whole, .header ['b'] (.range 1 5), .lens ['b'] (.range 1 2), .lens ['b'] (.range 3 5)] := by
  decide

/-! ## C24 -/

theorem text_ascii {t : PieceTable} (hw : t.WF) (ha : Ascii t.content) : t.text = .ok t.content :=
  text_eq hw ⟨isText_ascii ha, fun _ _ => ascii_boundary ha _⟩

theorem mapM_exists {α β : Type} {f : α → R β} {P : α → β → Prop} {l : List α} (h : ∀ x ∈ l, ∃ y, f x = .ok y ∧ P x y) :
    ∃ ys, l.mapM f = .ok ys ∧ (∀ y ∈ ys, ∃ x ∈ l, P x y) ∧ ∀ x ∈ l, ∃ y ∈ ys, P x y := by
  induction l with
  | nil => exact ⟨[], rfl, by simp, by simp⟩
  | cons x l ih =>
    obtain ⟨y, e, hy⟩ := h x (by simp)
    obtain ⟨ys, e', h1, h2⟩ := ih fun z hz => h z (by simp [hz])
    refine ⟨y :: ys, by rw [List.mapM_cons, e, e']; rfl, ?_, ?_⟩
    · intro z hz
      rcases List.mem_cons.1 hz with rfl | hz
      · exact ⟨x, by simp, hy⟩
      · obtain ⟨w, hw, hp⟩ := h1 z hz; exact ⟨w, by simp [hw], hp⟩
    · intro z hz
      rcases List.mem_cons.1 hz with rfl | hz
      · exact ⟨y, by simp, hy⟩
      · obtain ⟨w, hw, hp⟩ := h2 z hz; exact ⟨w, by simp [hw], hp⟩

/-- C24: the lens of a whole buffer with an ASCII text that ends with a newline and has no carriage return has its
lines, each followed by a space (standing for the newline), and a cell is highlighted exactly if it is the position of
a selected offset. -/
theorem C24_highlight {b : Buffer} (h : SteadyHistory b.content) {s : Bytes} (hs : Shows b.content s) (ha : Ascii s)
    (hcr : 13 ∉ s) (he : EndsWithNewline s) {seg : Segmentation} (hseg : IsSegmentation seg)
    {buffers : Assoc Str Buffer} {name : Str} (hb : buffers.get name = some b)
    {selections : Assoc Str (List Selection)} {sels : List Selection} (hsel : selections.get name = some sels)
    (hin : ∀ sel ∈ sels, Inside s sel) :
    ∃ r, lensParams seg buffers (some selections) name .whole = .ok r ∧ r.firstLineNum = 1 ∧
      r.lines.map (·.text) = (Spec.lines s).map (· ++ [32]) ∧
      ∀ i k, Highlighted r i k ↔
        ∃ sel ∈ sels, ∃ o, min sel.anchor sel.cursor ≤ o ∧ o ≤ max sel.anchor sel.cursor ∧ At s o (i + 1) (k + 1) := by
  have hw := (reachable_ready (steady_any h)).wf
  have hn := steady_newlines h
  have hc := (shows_iff hw).1 hs
  subst hc
  -- one selection
  have one : ∀ sel ∈ sels, ∃ rs, (do
        let (a, b) ← selectionEnds seg b.content sel
        selectedRanges a b) = .ok rs ∧ ∀ i k line, (Spec.lines b.content.content)[i]? = some line →
          (Covers rs (line.length + 1) i k ↔ ∃ o, min sel.anchor sel.cursor ≤ o ∧ o ≤ max sel.anchor sel.cursor ∧
            At b.content.content o (i + 1) (k + 1)) := by
    intro sel hsel
    obtain ⟨h1, h2, _⟩ := hin sel hsel
    have hmin : min sel.anchor sel.cursor = sel.first := by unfold Selection.first; split <;> omega
    have hmax : max sel.anchor sel.cursor = sel.last := by unfold Selection.last; split <;> omega
    rw [hmin, hmax]
    have hfl : sel.first ≤ sel.last := by rw [← hmin, ← hmax]; omega
    obtain ⟨a, b', e, hat, hbc, hblen, hb'⟩ := selectionEnds_ascii hw hn hseg ha he h1 h2
    have hac : 1 ≤ a.l ∧ 1 ≤ a.c := by obtain ⟨_, _, _, hl, h, _⟩ := hat; exact ⟨hl.pos, h⟩
    have hlex := (hb' _ _ _ hat).1 hfl
    obtain ⟨rs, e2, hrs⟩ := selectedRanges_ok hac.1 hac.2 hbc hlex
    refine ⟨rs, by rw [e]; exact e2, ?_⟩
    intro i k line hline
    have hi : i + 1 ≤ (Spec.lines b.content.content).length := by
      have := (List.getElem?_eq_some_iff.1 hline).1; omega
    obtain ⟨pre, line', suf, hl⟩ := exists_line (n := i + 1) (by omega) hi
    have hll : line' = line := by have := hl.get; rw [Nat.add_sub_cancel, hline] at this; simpa using this.symm
    subst hll
    rw [hrs _ _ _ (by intro e3; rw [e3] at hl; have := hblen _ _ _ hl; omega)]
    constructor
    · rintro ⟨hk, hna, hbb⟩
      have hat2 : At b.content.content (pre.length + k) (i + 1) (k + 1) :=
        ⟨pre, line', suf, hl, by omega, by omega, by omega⟩
      refine ⟨_, ?_, (hb' _ _ _ hat2).2 hbb, hat2⟩
      rw [← at_order hat2 hat] at hna
      omega
    · rintro ⟨o, ho1, ho2, hat2⟩
      refine ⟨?_, ?_, (hb' _ _ _ hat2).1 ho2⟩
      · obtain ⟨p2, l2, s2, hl2, g1, g2, g3⟩ := hat2
        obtain ⟨_, e2, _⟩ := hl.unique hl2
        rw [e2] at g2; omega
      · rw [← at_order hat2 hat]; omega
  obtain ⟨sel', e', hA, hB⟩ := mapM_exists one
  have hlines : b.content.lines = .ok (Spec.lines b.content.content) := by
    unfold PieceTable.lines
    rw [text_ascii hw ha]
    simp only [except_bind_ok, except_pure]
    rw [strLines_eq hcr]
  unfold lensParams
  rw [Assoc.at_ok hb]
  simp only [except_bind_ok, Option.bind_some, hsel, Option.getD_some, e', Buffer.lines, hlines, except_pure]
  refine ⟨_, rfl, rfl, ?_, ?_⟩
  · apply List.ext_getElem?
    intro i
    simp [List.getElem?_mapIdx, Function.comp_def]
  · intro i k
    unfold Highlighted
    simp only [List.getElem?_mapIdx]
    constructor
    · rintro ⟨line, hline, r, hr, hk⟩
      rw [Option.map_eq_some_iff] at hline
      obtain ⟨l, hl, rfl⟩ := hline
      simp only [List.mem_map, List.mem_filter, List.length_append, List.length_singleton] at hr
      obtain ⟨q, ⟨hq, hqi⟩, rfl⟩ := hr
      simp only [List.mem_flatten] at hq
      obtain ⟨rs, hrs, hqr⟩ := hq
      obtain ⟨sel, hsm, hp⟩ := hA rs hrs
      obtain ⟨o, ho⟩ := (hp i k l hl).1 ⟨q, hqr, by simpa using hqi, hk⟩
      exact ⟨sel, hsm, o, ho⟩
    · rintro ⟨sel, hsm, o, ho⟩
      obtain ⟨rs, hrs, hp⟩ := hB sel hsm
      obtain ⟨p2, l2, s2, hl2, g1, g2, g3⟩ := ho.2.2
      have hget := hl2.get
      rw [Nat.add_sub_cancel] at hget
      obtain ⟨q, hq, hqi, hk⟩ := (hp i k l2 hget).2 ⟨o, ho⟩
      refine ⟨_, by rw [hget]; rfl, decoRange (l2.length + 1) q.2, ?_, hk⟩
      simp only [List.mem_map, List.mem_filter, List.length_append, List.length_singleton, List.mem_flatten]
      exact ⟨q, ⟨⟨rs, hrs, hq⟩, by simpa using hqi⟩, rfl⟩

/-- the buffer of the example: `"ab\n\nc\n"` -/
def bufA : Buffer := { source := .scratch ['a'], content := TA, lastSync := none, modified := false }

/-- a non-trivial case: a selection backwards over three lines, from the newline of the first to `c` -/
example : ∃ r, lensParams bytewise [(['a'], bufA)] (some [(['a'], [⟨4, 2, 1⟩])]) ['a'] .whole = .ok r ∧
    Highlighted r 0 2 ∧ Highlighted r 1 0 ∧ Highlighted r 2 0 ∧ ¬ Highlighted r 2 1 := by
  obtain ⟨r, e, _, _, h⟩ := C24_highlight (b := bufA) (forward_steady TA_forward) TA_shows textA_ascii (by decide) textA_ends bytewise_ok
    (buffers := [(['a'], bufA)]) (name := ['a']) rfl (selections := [(['a'], [⟨4, 2, 1⟩])]) rfl
    (by intro sel hs; simp at hs; subst hs; unfold Inside; decide)
  refine ⟨r, e, ?_, ?_, ?_, ?_⟩
  · exact (h 0 2).2 ⟨⟨4, 2, 1⟩, by simp, 2, by decide, by decide, [], [97, 98], [10, 10, 99, 10],
      ⟨rfl, rfl, by decide, by decide, by decide, by decide⟩, by decide, by decide, by decide⟩
  · exact (h 1 0).2 ⟨⟨4, 2, 1⟩, by simp, 3, by decide, by decide, [97, 98, 10], [], [10, 99, 10],
      ⟨rfl, rfl, by decide, by decide, by decide, by decide⟩, by decide, by decide, by decide⟩
  · exact (h 2 0).2 ⟨⟨4, 2, 1⟩, by simp, 4, by decide, by decide, [97, 98, 10, 10], [99], [10],
      ⟨rfl, rfl, by decide, by decide, by decide, by decide⟩, by decide, by decide, by decide⟩
  · intro hh
    obtain ⟨sel, hm, o, h1, h2, hat⟩ := (h 2 1).1 hh
    simp at hm
    subst hm
    have : At textA 5 3 2 := ⟨[97, 98, 10, 10], [99], [10],
      ⟨rfl, rfl, by decide, by decide, by decide, by decide⟩, by decide, by decide, by decide⟩
    have h3 := at_order hat this
    simp [Before] at h2 h3
    omega

/-- C24 fails for a lens on a range of lines: the highlight of line 3 is put where line 3 is counted from the start
of the buffer, while the lens shows lines 3 on only. (No request creates such a lens.) -/
theorem C24_range_lens_misplaced :
    lensParams bytewise [(['a'], bufA)] (some [(['a'], [⟨4, 4, 1⟩])]) ['a'] (.range 2 3) =
      .ok { lines := [{ text := [99, 32], selected := [] }], firstLineNum := 3 } := by
  decide

end Ced.Props

import Verif.Proofs.Diff

/-! Auxiliary lemmas for the exact outcome of `diff` and `apply_diff`. -/

namespace Ced
open Spec

namespace DiffM

theorem commonPrefix_append (p l r : Bytes) : commonPrefix (p ++ l) (p ++ r) = p.length + commonPrefix l r := by
  induction p with
  | nil => simp
  | cons a p ih => simp [commonPrefix, ih]; omega

theorem commonPrefix_zero {a b : Bytes} (h : ∀ c x y, a = c :: x → b ≠ c :: y) : commonPrefix a b = 0 := by
  cases a with
  | nil => rfl
  | cons c x =>
    cases b with
    | nil => rfl
    | cons d y =>
      have : c ≠ d := fun e => h c x y rfl (by rw [e])
      simp [commonPrefix, this]

theorem commonPrefix_ends (a b : Bytes) (c : UInt8) (x y : Bytes) (ha : a.drop (commonPrefix a b) = c :: x) :
    b.drop (commonPrefix a b) ≠ c :: y := by
  fun_induction commonPrefix a b with
  | case1 xs d ys ih => simpa using ih (by simpa using ha)
  | case2 d xs e ys hne =>
    simp only [List.drop_zero] at ha ⊢
    cases ha
    intro h; cases h; exact hne rfl
  | case3 a b hno =>
    simp only [List.drop_zero] at ha ⊢
    intro h
    exact hno _ _ _ _ ha h

theorem precompute_of_split {left right p l r s : Bytes} (h : Split left right p l r s) :
    precompute left right =
      if p.length = s.length ∨ s.length = 0 then (p.length, none) else (p.length, some s.length) := by
  have h1 : commonPrefix left right = p.length := by
    rw [h.left, h.right, List.append_assoc, List.append_assoc, commonPrefix_append,
      commonPrefix_zero h.beginning]
    rfl
  have h2 : commonPrefix (left.drop p.length).reverse (right.drop p.length).reverse = s.length := by
    rw [h.left, h.right]
    simp only [List.append_assoc, List.drop_left, List.reverse_append]
    rw [commonPrefix_append, commonPrefix_zero]
    · simp
    · intro c x y hx hy
      have hx' := congrArg List.reverse hx
      have hy' := congrArg List.reverse hy
      simp only [List.reverse_reverse, List.reverse_cons] at hx' hy'
      exact h.ending c x.reverse y.reverse hx' hy'
  unfold precompute
  rw [h1]
  simp only [h2]

/-- Every pair of texts can be cut so. -/
theorem split_exists (left right : Bytes) : ∃ p l r s, Split left right p l r s := by
  let k := commonPrefix left right
  let a := left.drop k
  let b := right.drop k
  let n := commonPrefix a.reverse b.reverse
  obtain ⟨ha, hb⟩ := commonPrefix_le a.reverse b.reverse
  simp only [List.length_reverse] at ha hb
  have hsuf : a.drop (a.length - n) = b.drop (b.length - n) := drop_commonSuffix a b
  refine ⟨left.take k, a.take (a.length - n), b.take (b.length - n), a.drop (a.length - n), ?_, ?_, ?_, ?_⟩
  · rw [List.append_assoc, List.take_append_drop, List.take_append_drop]
  · rw [hsuf, List.append_assoc, List.take_append_drop, take_commonPrefix, List.take_append_drop]
  · intro c x y hx
    rw [List.take_append_drop] at hx
    rw [hsuf, List.take_append_drop]
    exact commonPrefix_ends left right c x y hx
  · intro c x y hx hy
    have e1 : a.reverse.drop n = c :: x.reverse := by
      rw [List.drop_reverse, hx]; simp
    refine commonPrefix_ends a.reverse b.reverse c x.reverse y.reverse e1 ?_
    show b.reverse.drop n = _
    rw [List.drop_reverse, hy]; simp

theorem spanLeft_append (a b : List Diff) : spanLeft (a ++ b) = spanLeft a + spanLeft b := by
  induction a with
  | nil => simp [spanLeft]
  | cons d a ih => cases d <;> simp [spanLeft, ih] <;> omega

theorem spanRight_append (a b : List Diff) : spanRight (a ++ b) = spanRight a + spanRight b := by
  induction a with
  | nil => simp [spanRight]
  | cons d a ih => cases d <;> simp [spanRight, ih] <;> omega

theorem spanLeft_push (n : Nat) : spanLeft (pushPos .left n) = n ∧ spanLeft (pushPos .both n) = n ∧
    spanLeft (pushPos .right n) = 0 := by
  unfold pushPos; split <;> simp [spanLeft] <;> omega

theorem spanRight_push (n : Nat) : spanRight (pushPos .left n) = 0 ∧ spanRight (pushPos .both n) = n ∧
    spanRight (pushPos .right n) = n := by
  unfold pushPos; split <;> simp [spanRight] <;> omega

theorem loop_span (fuel : Nat) (l r its : Bytes) (hl : its.Sublist l) (hr : its.Sublist r) {ds : List Diff}
    {l' r' : Bytes} (h : loop fuel l r its = .ok (ds, l', r')) :
    spanLeft ds + l'.length = l.length ∧ spanRight ds + r'.length = r.length := by
  induction fuel generalizing l r its ds l' r' with
  | zero => simp only [loop, Except.ok.injEq, Prod.mk.injEq] at h; obtain ⟨rfl, rfl, rfl⟩ := h; simp [spanLeft, spanRight]
  | succ fuel ih =>
    cases its with
    | nil => simp only [loop, Except.ok.injEq, Prod.mk.injEq] at h; obtain ⟨rfl, rfl, rfl⟩ := h; simp [spanLeft, spanRight]
    | cons c its =>
      obtain ⟨sl, a1, a2⟩ := skipTo_eq c l
      obtain ⟨sr, b1, b2⟩ := skipTo_eq c r
      obtain ⟨com, l1, r1, i1, e1, c1, c2, c3, c4, _⟩ :=
        runBoth_eq c _ _ its 0 (skipTo_sub hl) (skipTo_sub hr)
      obtain ⟨ds1, l2, r2, lc, rc, e2, d1, d2, d3⟩ := loop_eq fuel l1 r1 i1 c3 c4
      obtain ⟨i1, i2⟩ := ih l1 r1 i1 c3 c4 e2
      simp only [loop, e1, e2, except_bind_ok, except_pure, Except.ok.injEq, Prod.mk.injEq] at h
      obtain ⟨rfl, rfl, rfl⟩ := h
      have hll := congrArg List.length a1
      have hrr := congrArg List.length b1
      have hlc := congrArg List.length c1
      have hrc := congrArg List.length c2
      simp only [List.length_append] at hll hrr hlc hrc
      simp only [spanLeft_append, spanRight_append, spanLeft_push, spanRight_push]
      omega

theorem runBoth_first {c : UInt8} {l r its : Bytes} {len : Nat} {res : Nat × Bytes × Bytes × Bytes}
    (hl : ∃ x, l = c :: x) (hr : ∃ y, r = c :: y) (h : runBoth c l r its len = .ok res) :
    ∃ d lc rc, l = lc ++ d :: res.2.1 ∧ r = rc ++ d :: res.2.2.1 := by
  induction l generalizing c r its len with
  | nil => obtain ⟨x, hx⟩ := hl; cases hx
  | cons a xs ih =>
    obtain ⟨x, hx⟩ := hl
    obtain ⟨y, rfl⟩ := hr
    cases hx
    cases its with
    | nil =>
      simp only [runBoth, if_true, Except.ok.injEq] at h
      subst h
      exact ⟨a, [], [], rfl, rfl⟩
    | cons v its =>
      simp only [runBoth, if_true] at h
      by_cases hv : (∃ x', xs = v :: x') ∧ ∃ y', y = v :: y'
      · obtain ⟨d, lc, rc, e1, e2⟩ := ih hv.1 hv.2 h
        exact ⟨d, a :: lc, a :: rc, by rw [e1]; simp, by rw [e2]; simp⟩
      · have hstop : res.2.1 = xs ∧ res.2.2.1 = y := by
          cases xs with
          | nil => cases h
          | cons b xs =>
            simp only [runBoth] at h
            split at h
            · rename_i hb
              cases y with
              | nil => cases h
              | cons e y =>
                simp only at h
                split at h
                · rename_i he
                  exact absurd ⟨⟨xs, by rw [hb]⟩, ⟨y, by rw [he]⟩⟩ hv
                · simp only [Except.ok.injEq] at h; subst h; exact ⟨rfl, rfl⟩
            · simp only [Except.ok.injEq] at h; subst h; exact ⟨rfl, rfl⟩
        rw [hstop.1, hstop.2]
        exact ⟨a, [], [], rfl, rfl⟩

theorem skipTo_head {c : UInt8} {its l : Bytes} (h : (c :: its).Sublist l) : ∃ x, (skipTo c l).2 = c :: x := by
  induction l with
  | nil => cases h
  | cons x xs ih =>
    simp only [skipTo]
    split
    · rename_i hx; exact ⟨xs, by rw [hx]⟩
    · rename_i hx
      cases h with
      | cons _ h => exact ih h
      | cons_cons _ h => exact absurd rfl hx

/-- What the main loop leaves begins right after a common byte. -/
theorem loop_end (fuel : Nat) (l r its : Bytes) (hl : its.Sublist l) (hr : its.Sublist r) {ds : List Diff}
    {l' r' : Bytes} (h : loop fuel l r its = .ok (ds, l', r')) :
    (l' = l ∧ r' = r) ∨ ∃ c lc rc, l = lc ++ c :: l' ∧ r = rc ++ c :: r' := by
  induction fuel generalizing l r its ds l' r' with
  | zero => simp only [loop, Except.ok.injEq, Prod.mk.injEq] at h; obtain ⟨rfl, rfl, rfl⟩ := h; exact Or.inl ⟨rfl, rfl⟩
  | succ fuel ih =>
    cases its with
    | nil => simp only [loop, Except.ok.injEq, Prod.mk.injEq] at h; obtain ⟨rfl, rfl, rfl⟩ := h; exact Or.inl ⟨rfl, rfl⟩
    | cons c its =>
      right
      obtain ⟨sl, a1, a2⟩ := skipTo_eq c l
      obtain ⟨sr, b1, b2⟩ := skipTo_eq c r
      obtain ⟨com, l1, r1, i1, e1, c1, c2, c3, c4, _⟩ :=
        runBoth_eq c _ _ its 0 (skipTo_sub hl) (skipTo_sub hr)
      obtain ⟨ds1, l2, r2, lc, rc, e2, d1, d2, d3⟩ := loop_eq fuel l1 r1 i1 c3 c4
      obtain ⟨d, lc1, rc1, f1, f2⟩ := runBoth_first (skipTo_head hl) (skipTo_head hr) e1
      have hrec := ih l1 r1 i1 c3 c4 e2
      simp only [loop, e1, e2, except_bind_ok, except_pure, Except.ok.injEq, Prod.mk.injEq] at h
      obtain ⟨_, rfl, rfl⟩ := h
      dsimp only at f1 f2
      have g1 : l = (sl ++ lc1) ++ d :: l1 := by rw [List.append_assoc, ← f1]; exact a1
      have g2 : r = (sr ++ rc1) ++ d :: r1 := by rw [List.append_assoc, ← f2]; exact b1
      rcases hrec with ⟨rfl, rfl⟩ | ⟨c', lc', rc', h1, h2⟩
      · exact ⟨d, _, _, g1, g2⟩
      · refine ⟨c', sl ++ lc1 ++ d :: lc', sr ++ rc1 ++ d :: rc', ?_, ?_⟩
        · rw [g1]; conv => lhs; rw [h1]
          simp
        · rw [g2]; conv => lhs; rw [h2]
          simp

/-- The script of two texts with non-empty middles. -/
theorem diffFrom_split (p s : Bytes) {l r : Bytes} (hl : l ≠ []) (hr : r ≠ []) :
    ∃ ds0 lc l' rc r', diffFrom (p ++ l ++ s) (p ++ r ++ s) p.length s.length =
        .ok (pushPos .both p.length ++ ds0 ++ (if 1 < l'.length then [.left l'.length] else []) ++
          (if 1 < r'.length then [.right r'.length] else []) ++ pushPos .both s.length) ∧
      l = lc ++ l' ∧ r = rc ++ r' ∧ spanLeft ds0 = lc.length ∧ spanRight ds0 = rc.length ∧
      ((l' = l ∧ r' = r) ∨ ∃ c lx rx, l = lx ++ c :: l' ∧ r = rx ++ c :: r') ∧
      ∀ tail lt rt, applyScript (ds0 ++ tail) (l ++ lt) (r ++ rt) =
        rc ++ applyScript tail (l' ++ lt) (r' ++ rt) := by
  have e1 : ((p ++ l ++ s).take ((p ++ l ++ s).length - s.length)).drop p.length = l := by
    rw [show (p ++ l ++ s).length - s.length = (p ++ l).length by simp; omega, List.take_left, List.drop_left]
  have e2 : ((p ++ r ++ s).take ((p ++ r ++ s).length - s.length)).drop p.length = r := by
    rw [show (p ++ r ++ s).length - s.length = (p ++ r).length by simp; omega, List.take_left, List.drop_left]
  obtain ⟨lcs, f1, s1, s2⟩ := findLcs_sub hl hr
  obtain ⟨ds0, l', r', lc, rc, f2, d1, d2, d3⟩ := loop_eq lcs.length l r lcs s1 s2
  obtain ⟨g1, g2⟩ := loop_span _ _ _ _ s1 s2 f2
  have hlpos := List.length_pos_iff.2 hl
  have hrpos := List.length_pos_iff.2 hr
  have hll : l.length = lc.length + l'.length := by rw [d1]; simp
  have hrr : r.length = rc.length + r'.length := by rw [d2]; simp
  refine ⟨ds0, lc, l', rc, r', ?_, d1, d2, by omega, by omega, loop_end _ _ _ _ s1 s2 f2, d3⟩
  unfold diffFrom
  rw [e1, e2]
  simp only [f1, f2, except_bind_ok, subChecked_ok hlpos, subChecked_ok hrpos, except_pure]
  have c1 : (l.length - l'.length < l.length - 1) ↔ 1 < l'.length := by omega
  have c2 : (r.length - r'.length < r.length - 1) ↔ 1 < r'.length := by omega
  simp only [c1, c2]
  rw [show l.length - (l.length - l'.length) = l'.length by omega,
    show r.length - (r.length - r'.length) = r'.length by omega]

/-- What the end of the script does. -/
theorem tail_script (l' r' s : Bytes) :
    applyScript ((if 1 < l'.length then [.left l'.length] else []) ++
      (if 1 < r'.length then [.right r'.length] else []) ++ pushPos .both s.length) (l' ++ s) (r' ++ s) =
      (if r'.length = 1 then [] else r') ++ (if l'.length = 1 then l' else []) ++ s := by
  have key : ∀ x y : Bytes, applyScript (pushPos .both s.length) (x ++ s) y = x ++ s := by
    intro x y
    unfold pushPos
    split
    · simp only [applyScript, List.take_append_drop]
    · simp only [applyScript]
  by_cases h1 : 1 < l'.length
  · rw [if_pos h1, if_neg (show ¬ l'.length = 1 by omega)]
    by_cases h2 : 1 < r'.length
    · rw [if_pos h2, if_neg (show ¬ r'.length = 1 by omega)]
      have := key [] s
      simp only [List.nil_append] at this
      simp only [List.cons_append, List.nil_append, List.append_nil, applyScript, List.drop_left, List.take_left, this]
    · rw [if_neg h2]
      have : (if r'.length = 1 then ([] : Bytes) else r') = [] := by
        split
        · rfl
        · exact List.length_eq_zero_iff.1 (by omega)
      rw [this]
      have k := key [] (r' ++ s)
      simp only [List.nil_append] at k
      simp only [List.cons_append, List.nil_append, List.append_nil, applyScript, List.drop_left, k]
  · rw [if_neg h1]
    have e : (if l'.length = 1 then l' else ([] : Bytes)) = l' := by
      split
      · rfl
      · exact (List.length_eq_zero_iff.1 (by omega)).symm
    rw [e]
    by_cases h2 : 1 < r'.length
    · rw [if_pos h2, if_neg (show ¬ r'.length = 1 by omega)]
      simp only [List.cons_append, List.nil_append, List.append_assoc, applyScript, List.drop_left, List.take_left, key]
    · rw [if_neg h2]
      have : (if r'.length = 1 then ([] : Bytes) else r') = [] := by
        split
        · rfl
        · exact List.length_eq_zero_iff.1 (by omega)
      rw [this]
      simp only [List.nil_append, key]

theorem diff_early {left right p l r s : Bytes} (h : Split left right p l r s) (he : Unnoticed p s) :
    diff left right = .ok [.both p.length] := by
  have hp := List.length_pos_iff.2 he.1
  have hc : p.length = s.length ∨ s.length = 0 := by
    rcases he.2 with h1 | h1
    · exact Or.inr (by simp [h1])
    · exact Or.inl h1
  unfold diff
  rw [precompute_of_split h, if_pos hc]
  simp [hp, pushPos]

theorem diff_late {left right p l r s : Bytes} (h : Split left right p l r s) (he : ¬ Unnoticed p s) :
    diff left right = diffFrom left right p.length s.length := by
  unfold diff
  rw [precompute_of_split h]
  by_cases hc : p.length = s.length ∨ s.length = 0
  · rw [if_pos hc]
    have hp : p = [] := by
      refine Classical.byContradiction fun hp => he ⟨hp, ?_⟩
      rcases hc with h1 | h1
      · exact Or.inr h1
      · exact Or.inl (List.length_eq_zero_iff.1 h1)
    have hs : s.length = 0 := by rcases hc with hc | hc <;> simp_all
    simp [hp, hs]
  · rw [if_neg hc]

theorem diff_empty {left right p l r s : Bytes} (h : Split left right p l r s) (he : ¬ Unnoticed p s)
    (hm : l = [] ∨ r = []) : diff left right = .error .overflow := by
  rw [diff_late h he, h.left, h.right]
  have e1 : ((p ++ l ++ s).take ((p ++ l ++ s).length - s.length)).drop p.length = l := by
    rw [show (p ++ l ++ s).length - s.length = (p ++ l).length by simp; omega, List.take_left, List.drop_left]
  have e2 : ((p ++ r ++ s).take ((p ++ r ++ s).length - s.length)).drop p.length = r := by
    rw [show (p ++ r ++ s).length - s.length = (p ++ r).length by simp; omega, List.take_left, List.drop_left]
  unfold diffFrom
  rw [e1, e2]
  simp only [findLcs_empty hm]
  rfl

/-- The script in the remaining case. -/
theorem diff_middle {left right p l r s : Bytes} (h : Split left right p l r s) (he : ¬ Unnoticed p s)
    (hl : l ≠ []) (hr : r ≠ []) :
    ∃ ds0 lc l' rc r', diff left right = .ok (ds0 ++ pushPos .both s.length) ∧
      l = lc ++ l' ∧ r = rc ++ r' ∧
      ((l' = l ∧ r' = r) ∨ ∃ c lx rx, l = lx ++ c :: l' ∧ r = rx ++ c :: r') ∧
      spanLeft ds0 = p.length + lc.length + (if l'.length = 1 then 0 else l'.length) ∧
      spanRight ds0 = p.length + rc.length + (if r'.length = 1 then 0 else r'.length) ∧
      applyScript (ds0 ++ pushPos .both s.length) left right =
        p ++ rc ++ (if r'.length = 1 then [] else r') ++ (if l'.length = 1 then l' else []) ++ s := by
  obtain ⟨ds0, lc, l', rc, r', e, d1, d2, d3, d4, d6, d5⟩ := diffFrom_split p s hl hr
  refine ⟨pushPos .both p.length ++ ds0 ++ (if 1 < l'.length then [.left l'.length] else []) ++
          (if 1 < r'.length then [.right r'.length] else []), lc, l', rc, r', ?_, d1, d2, d6, ?_, ?_, ?_⟩
  · rw [diff_late h he, h.left, h.right, e]
  · simp only [spanLeft_append, spanLeft_push, d3]
    have : spanLeft (if 1 < r'.length then [Diff.right r'.length] else []) = 0 := by split <;> rfl
    rw [this]
    have : spanLeft (if 1 < l'.length then [Diff.left l'.length] else []) = if l'.length = 1 then 0 else l'.length := by
      split <;> split <;> simp [spanLeft] <;> omega
    omega
  · simp only [spanRight_append, spanRight_push, d4]
    have : spanRight (if 1 < l'.length then [Diff.left l'.length] else []) = 0 := by split <;> rfl
    rw [this]
    have : spanRight (if 1 < r'.length then [Diff.right r'.length] else []) = if r'.length = 1 then 0 else r'.length := by
      split <;> split <;> simp [spanRight] <;> omega
    omega
  · rw [h.left, h.right]
    simp only [List.append_assoc]
    rw [pushPos_both _ _ _ _ _ rfl, d5]
    have := tail_script l' r' s
    simp only [List.append_assoc] at this
    rw [this]

end DiffM

namespace PieceTable

/-- A step that only inserts or keeps fails only at a cut inside a character. -/
theorem fold_total {hs : Nat → StaleHandle} (hf : ∀ i, (hs i).follows = true) (text : Bytes) (t0 : PieceTable)
    (ds : List Diff) (hpos : ∀ d ∈ ds, 0 < DiffM.size d) (k : Nat) (t : PieceTable) (lo ro : Nat)
    (out lrest : Bytes) (hb : Bulk t0 t) (hc : t.content = out ++ lrest) (hlo : lo = out.length)
    (hsl : spanLeft ds ≤ lrest.length) (hsr : ro + spanRight ds ≤ text.length)
    (hcuts : ∀ c ∈ cutsFrom ro ds, isCharBoundary text c)
    (hend : spanLeft ds < lrest.length ∨ ∀ i, lrest.length ≤ (hs i).staleOffset) :
    ∃ st, (ds.zipIdx k).foldlM (fun st d => applyOne (hs d.2) text st d.1) (t, lo, ro) = .ok st := by
  induction ds generalizing k t lo ro out lrest with
  | nil => exact ⟨_, rfl⟩
  | cons d ds ih =>
    rw [List.zipIdx_cons, List.foldlM_cons]
    have hpos' : ∀ d ∈ ds, 0 < DiffM.size d := fun d hd => hpos d (by simp [hd])
    cases d with
    | left n =>
      have hn : 0 < n := hpos (.left n) (by simp)
      simp only [spanLeft, spanRight] at hsl hsr hend
      simp only [applyOne]
      have hlen : t.content.length = out.length + lrest.length := by rw [hc]; simp
      rcases delete_eq (hf k) hb.wf lo n with ⟨u, e1, heff, hu1, hu2, hu3, hu4, hu5⟩ | ⟨_, h0, _⟩ | ⟨_, _, _, h2, h3⟩
      · rw [e1]
        simp only [except_bind_ok, except_pure]
        rw [action_bulk hb.action] at hu1 hu2 hu3
        obtain ⟨x, hx⟩ := hb.added
        have hb' : Bulk t0 u := ⟨heff.wf, by rw [hu3]; exact hb.action, by rw [hu1]; exact hb.undos,
          by rw [hu2]; exact hb.redos, by rw [hu4]; exact hb.original, ⟨x, by rw [hu5, hx]⟩,
          fun hh => heff.newlines (hb.newlines hh)⟩
        have hc' : u.content = out ++ lrest.drop n := by
          rw [heff.content, hc, cut, hlo]; simp
        refine ih hpos' (k + 1) u lo ro out (lrest.drop n) hb' hc' hlo (by simp; omega) (by omega) hcuts ?_
        rcases hend with h | h
        · left; simp; omega
        · right; intro i; have := h i; simp; omega
      · omega
      · exfalso
        rcases hend with h | h
        · omega
        · have := h k; omega
    | right n =>
      have hn : 0 < n := hpos (.right n) (by simp)
      simp only [spanLeft, spanRight] at hsl hsr hend
      simp only [applyOne, strSliceR]
      simp only [cutsFrom, List.mem_cons] at hcuts
      rw [if_pos ⟨by omega, by omega, hcuts _ (Or.inl rfl), hcuts _ (Or.inr (Or.inl rfl))⟩]
      simp only [except_bind_ok, except_pure]
      have hxl : ((text.drop ro).take (ro + n - ro)).length = n := by simp; omega
      generalize hxe : (text.drop ro).take (ro + n - ro) = x at hxl ⊢
      have hx : x ≠ [] := by intro h0; rw [h0] at hxl; simp at hxl; omega
      obtain ⟨heff, hu1, hu2, hu3, hu4, hu5⟩ := insert_eq hb.wf hx lo
      rw [action_bulk hb.action] at hu1 hu2 hu3
      obtain ⟨y, hy⟩ := hb.added
      have hb' : Bulk t0 (t.insert lo x) := ⟨heff.wf, by rw [hu3]; exact hb.action,
        by rw [hu1]; exact hb.undos, by rw [hu2]; exact hb.redos, by rw [hu4]; exact hb.original,
        ⟨y ++ x, by rw [hu5, hy]; simp⟩, fun hh => heff.newlines (hb.newlines hh)⟩
      have hc' : (t.insert lo x).content = (out ++ x) ++ lrest := by
        rw [heff.content, hc, splice, hlo]; simp
      exact ih hpos' (k + 1) _ (lo + n) (ro + n) (out ++ x) lrest hb' hc' (by simp [hxl, hlo]) hsl (by omega)
        (fun c hcm => hcuts c (Or.inr (Or.inr hcm))) hend
    | both n =>
      simp only [spanLeft, spanRight] at hsl hsr hend
      simp only [applyOne, except_bind_ok]
      have hc' : t.content = (out ++ lrest.take n) ++ lrest.drop n := by
        rw [hc, List.append_assoc, List.take_append_drop]
      refine ih hpos' (k + 1) t (lo + n) (ro + n) (out ++ lrest.take n) (lrest.drop n) hb hc' (by simp [hlo]; omega)
        (by simp; omega) (by omega) hcuts ?_
      rcases hend with h | h
      · left; simp; omega
      · right; intro i; have := h i; simp; omega

/-- A script that is applied cuts the right text only between characters. -/
theorem fold_cuts {hs : Nat → StaleHandle} {text : Bytes} (ds : List Diff) (k : Nat) (t : PieceTable) (lo ro : Nat)
    {st : PieceTable × Nat × Nat}
    (h : (ds.zipIdx k).foldlM (fun st d => applyOne (hs d.2) text st d.1) (t, lo, ro) = .ok st) :
    ∀ c ∈ cutsFrom ro ds, isCharBoundary text c := by
  induction ds generalizing k t lo ro with
  | nil => simp [cutsFrom]
  | cons d ds ih =>
    rw [List.zipIdx_cons, List.foldlM_cons] at h
    cases d with
    | left n =>
      simp only [applyOne] at h
      cases hd : t.delete (hs k) lo n with
      | error e => rw [hd] at h; cases h
      | ok u => rw [hd] at h; exact ih _ _ _ _ h
    | right n =>
      simp only [applyOne, strSliceR] at h
      split at h
      · rename_i hc
        intro c hm
        simp only [cutsFrom, List.mem_cons] at hm
        rcases hm with rfl | rfl | hm
        · exact hc.2.2.1
        · exact hc.2.2.2
        · exact ih _ _ _ _ h c hm
      · cases h
    | both n => exact ih _ _ _ _ h

/-- A script that ends by keeping bytes is applied as far as what comes before can be. -/
theorem fold_push {hs : Nat → StaleHandle} {text : Bytes} {ds : List Diff} {n : Nat}
    {t : PieceTable} {lo ro : Nat} {st : PieceTable × Nat × Nat}
    (h : (ds.zipIdx 0).foldlM (fun st d => applyOne (hs d.2) text st d.1) (t, lo, ro) = .ok st) :
    ∃ st', ((ds ++ DiffM.pushPos .both n).zipIdx 0).foldlM (fun st d => applyOne (hs d.2) text st d.1) (t, lo, ro) = .ok st' := by
  rw [List.zipIdx_append, List.foldlM_append, h]
  simp only [except_bind_ok]
  unfold DiffM.pushPos
  split
  · exact ⟨_, rfl⟩
  · exact ⟨_, rfl⟩

theorem cutsFrom_push (ds : List Diff) (n o : Nat) : cutsFrom o (ds ++ DiffM.pushPos .both n) = cutsFrom o ds := by
  induction ds generalizing o with
  | nil => unfold DiffM.pushPos; split <;> rfl
  | cons d ds ih => cases d <;> simp [cutsFrom, ih]

/-- When applying the difference to another text completes, once a script was found. -/
theorem applyDiff_total {hs : Nat → StaleHandle} (hf : ∀ i, (hs i).follows = true) {t : PieceTable}
    (hr : t.Ready) {text p l r s : Bytes} (htext : t.text = .ok t.content) (h : Split t.content text p l r s)
    (he : ¬ Unnoticed p s) (hl : l ≠ []) (hr0 : r ≠ []) {ds : List Diff} (hd : DiffM.diff t.content text = .ok ds)
    (hcuts : ∀ c ∈ cutsFrom 0 ds, isCharBoundary text c)
    (hend : s ≠ [] ∨ ∀ i, t.content.length ≤ (hs i).staleOffset) : ∃ t', t.applyDiff hs text = .ok t' := by
  obtain ⟨ds0, lc, l', rc, r', e, d1, d2, _, d3, d4, _⟩ := DiffM.diff_middle h he hl hr0
  have hds : ds = ds0 ++ DiffM.pushPos .both s.length := by rw [hd] at e; cases e; rfl
  subst hds
  have hll : l.length = lc.length + l'.length := by rw [d1]; simp
  have hrr : r.length = rc.length + r'.length := by rw [d2]; simp
  have hlen : t.content.length = p.length + l.length + s.length := by rw [h.left]; simp; omega
  have hlen2 : text.length = p.length + r.length + s.length := by rw [h.right]; simp; omega
  have hsb : t.startBulk = { t.commit with lastAction := some .bulk } := by
    unfold startBulk PieceTable.action
    rw [if_neg hr.noBulk, if_pos hr.noBulk]
  have hwsb : t.startBulk.WF := action_WF hr.wf .bulk
  have hcsb : t.startBulk.content = t.content := action_content hr.wf .bulk
  have hb : Bulk t.startBulk t.startBulk := ⟨hwsb, by rw [hsb], rfl, rfl, rfl, ⟨[], by simp⟩, id⟩
  have hpos := DiffM.diff_pos hd
  have b1 : (if l'.length = 1 then 0 else l'.length) ≤ l'.length := by split <;> omega
  have b2 : (if r'.length = 1 then 0 else r'.length) ≤ r'.length := by split <;> omega
  obtain ⟨st, hst⟩ := fold_total hf text t.startBulk ds0 (fun d hm => hpos d (by simp [hm])) 0 t.startBulk 0 0 []
    t.content hb (by simpa using hcsb) rfl (by omega) (by omega) (by rw [cutsFrom_push] at hcuts; exact hcuts) (by
      rcases hend with h1 | h1
      · left
        have := List.length_pos_iff.2 h1
        omega
      · exact Or.inr h1)
  obtain ⟨st', hst'⟩ := fold_push (n := s.length) hst
  refine ⟨st'.1.endBulk, ?_⟩
  unfold applyDiff
  rw [htext]
  simp only [except_bind_ok]
  rw [hd]
  simp only [except_bind_ok]
  rw [hst']
  rfl

/-- Applying a difference that is not noticed. -/
theorem applyDiff_unnoticed {hs : Nat → StaleHandle} {t : PieceTable} {text p l r s : Bytes}
    (htext : t.text = .ok t.content) (h : Split t.content text p l r s) (he : Unnoticed p s) :
    ∃ t', t.applyDiff hs text = .ok t' := by
  refine ⟨t.startBulk.endBulk, ?_⟩
  unfold applyDiff
  rw [htext]
  simp only [except_bind_ok]
  rw [DiffM.diff_early h he]
  rfl

/-- The difference is applied only when it cuts the other text between characters. -/
theorem applyDiff_cuts {hs : Nat → StaleHandle} {t t' : PieceTable} {text : Bytes} {s : Bytes}
    (htext : t.text = .ok s) {ds : List Diff} (hd : DiffM.diff s text = .ok ds)
    (h : t.applyDiff hs text = .ok t') : ∀ c ∈ cutsFrom 0 ds, isCharBoundary text c := by
  unfold applyDiff at h
  rw [htext] at h
  simp only [except_bind_ok] at h
  rw [hd] at h
  simp only [except_bind_ok] at h
  cases h3 : (ds.zipIdx).foldlM (fun st d => applyOne (hs d.2) text st d.1) (t.startBulk, 0, 0) with
  | error e => rw [h3] at h; cases h
  | ok st => exact fold_cuts ds 0 _ _ _ h3

theorem cutsFrom_le (ds : List Diff) (o : Nat) : ∀ c ∈ cutsFrom o ds, c ≤ o + spanRight ds := by
  induction ds generalizing o with
  | nil => simp [cutsFrom]
  | cons d ds ih =>
    cases d with
    | left n => simpa [cutsFrom, spanRight] using ih o
    | both n => intro c hc; have := ih (o + n) c hc; simp only [spanRight]; omega
    | right n =>
      intro c hc
      simp only [cutsFrom, List.mem_cons] at hc
      rcases hc with rfl | rfl | hc
      · omega
      · simp only [spanRight]; omega
      · have := ih (o + n) c hc; simp only [spanRight]; omega

end PieceTable
end Ced

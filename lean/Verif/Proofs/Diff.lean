import Verif.Model.Diff
import Verif.Spec.Diff
import Verif.Proofs.History

/-! Auxiliary lemmas about `diff` and `apply_diff`. -/

namespace Ced
open Spec

namespace DiffM

theorem commonPrefix_le (a b : Bytes) : commonPrefix a b ≤ a.length ∧ commonPrefix a b ≤ b.length := by
  fun_induction commonPrefix a b with
  | case1 xs y ys ih => simp; exact ih
  | case2 => simp
  | case3 => simp

theorem take_commonPrefix (a b : Bytes) : a.take (commonPrefix a b) = b.take (commonPrefix a b) := by
  fun_induction commonPrefix a b with
  | case1 xs y ys ih => simp [ih]
  | case2 => simp
  | case3 => simp

theorem commonPrefix_self (a : Bytes) : commonPrefix a a = a.length := by
  induction a with
  | nil => rfl
  | cons x xs ih => simp [commonPrefix, ih]

theorem drop_commonSuffix (a b : Bytes) :
    a.drop (a.length - commonPrefix a.reverse b.reverse) = b.drop (b.length - commonPrefix a.reverse b.reverse) := by
  have h := take_commonPrefix a.reverse b.reverse
  rw [List.take_reverse, List.take_reverse] at h
  have h' := congrArg List.reverse h
  simpa using h'

/-- The two texts, decomposed as `diff` does when it does not return early. -/
theorem precompute_split (left right : Bytes) (start : Nat) (stop? : Option Nat)
    (h : precompute left right = (start, stop?)) :
    let stop := stop?.getD 0
    let l := (left.take (left.length - stop)).drop start
    let r := (right.take (right.length - stop)).drop start
    ∃ p s, left = p ++ l ++ s ∧ right = p ++ r ++ s ∧ p.length = start ∧ s.length = stop := by
  intro stop l r
  unfold precompute at h
  simp only at h
  have hs : start = commonPrefix left right := by
    split at h <;> cases h <;> rfl
  obtain ⟨h1, h2⟩ := commonPrefix_le left right
  rw [← hs] at h1 h2
  obtain ⟨h3, h4⟩ := commonPrefix_le (left.drop start).reverse (right.drop start).reverse
  have hp := take_commonPrefix left right
  rw [← hs] at hp h
  generalize hk : commonPrefix (left.drop start).reverse (right.drop start).reverse = k at *
  simp only [List.length_reverse, List.length_drop] at h3 h4
  have hsuf := drop_commonSuffix (left.drop start) (right.drop start)
  rw [hk] at hsuf
  simp only [List.length_drop, List.drop_drop] at hsuf
  have hst : stop = 0 ∨ stop = k := by
    split at h <;> cases h
    · exact Or.inl rfl
    · exact Or.inr rfl
  have hsl : left.drop (left.length - stop) = right.drop (right.length - stop) := by
    rcases hst with h0 | h0
    · rw [h0]; simp
    · rw [h0]
      rw [show start + (left.length - start - k) = left.length - k by omega,
        show start + (right.length - start - k) = right.length - k by omega] at hsuf
      exact hsuf
  have hlk : start + stop ≤ left.length := by rcases hst with h0 | h0 <;> omega
  have hrk : start + stop ≤ right.length := by rcases hst with h0 | h0 <;> omega
  refine ⟨left.take start, left.drop (left.length - stop), ?_, ?_, ?_, ?_⟩
  · have : left.take start = (left.take (left.length - stop)).take start := by
      rw [List.take_take]; congr 1; omega
    rw [this, List.take_append_drop, List.take_append_drop]
  · have : left.take start = (right.take (right.length - stop)).take start := by
      rw [hp, List.take_take]; congr 1; omega
    rw [this, List.take_append_drop, hsl, List.take_append_drop]
  · simp; omega
  · simp; omega

/-! ## The common subsequence -/

theorem rowFrom_length (above : Option (List Nat)) (x : UInt8) (e j : Nat) (ys : Bytes) :
    (rowFrom above x e j ys).length = ys.length := by
  induction ys generalizing e j with
  | nil => rfl
  | cons y ys ih => simp [rowFrom, ih]

theorem tableFrom_length (above : Option (List Nat)) (right left : Bytes) :
    (tableFrom above right left).length = left.length * right.length := by
  induction left generalizing above with
  | nil => simp [tableFrom]
  | cons x xs ih => simp only [tableFrom, List.length_append, rowFrom_length, ih, List.length_cons]; rw [Nat.add_mul]; omega

theorem indexR_ok {α} {xs : List α} {i : Nat} (h : i < xs.length) : indexR xs i = .ok xs[i] := by
  simp [indexR, h]

theorem backtrack_sub (left right : Bytes) (mt : List Nat) (hmt : mt.length = left.length * right.length)
    (fuel i j : Nat) (lcs : Bytes) (hi : i ≤ left.length) (hj : j ≤ right.length) :
    ∃ s, backtrack left right mt fuel i j lcs = .ok (s ++ lcs) ∧
      s.Sublist (left.take i) ∧ s.Sublist (right.take j) := by
  induction fuel generalizing i j lcs with
  | zero => exact ⟨[], by simp [backtrack], by simp, by simp⟩
  | succ fuel ih =>
    cases i with
    | zero => exact ⟨[], by simp [backtrack], by simp, by simp⟩
    | succ i =>
      cases j with
      | zero => exact ⟨[], by simp [backtrack], by simp, by simp⟩
      | succ j =>
        simp only [backtrack]
        rw [indexR_ok (by omega : i < left.length), indexR_ok (by omega : j < right.length)]
        simp only [except_bind_ok]
        by_cases hxy : left[i] = right[j]
        · rw [if_pos hxy]
          obtain ⟨s, e, hl, hr⟩ := ih i j (left[i] :: lcs) (by omega) (by omega)
          refine ⟨s ++ [left[i]], by rw [e]; simp, ?_, ?_⟩
          · rw [List.take_succ_eq_append_getElem (by omega)]
            exact hl.append (List.Sublist.refl _)
          · rw [List.take_succ_eq_append_getElem (by omega), hxy]
            exact hr.append (List.Sublist.refl _)
        · rw [if_neg hxy]
          by_cases h00 : j = 0 ∧ i = 0
          · rw [if_pos h00]; exact ⟨[], by simp, by simp, by simp⟩
          · rw [if_neg h00]
            have hgo : ∃ b : Bool, (if i = 0 then (.ok true : R Bool) else do
                let k ← subChecked (i * right.length + j) 1
                let a ← indexR mt k
                let b ← indexR mt ((i - 1) * right.length + j)
                return decide (a > b)) = .ok b := by
              by_cases h0 : i = 0
              · exact ⟨true, by rw [if_pos h0]⟩
              · rw [if_neg h0]
                have hpos : 1 ≤ i * right.length := Nat.mul_pos (by omega) (by omega)
                have hlt : i * right.length + j < mt.length := by
                  rw [hmt]
                  calc i * right.length + j < i * right.length + right.length := by omega
                    _ = (i + 1) * right.length := by rw [Nat.add_mul]; omega
                    _ ≤ _ := Nat.mul_le_mul_right _ hi
                have hle : (i - 1) * right.length ≤ i * right.length := Nat.mul_le_mul_right _ (by omega)
                rw [subChecked_ok (by omega)]
                simp only [except_bind_ok]
                rw [indexR_ok (by omega), indexR_ok (by omega)]
                exact ⟨_, rfl⟩
            obtain ⟨b, hb⟩ := hgo
            rw [hb]
            simp only [except_bind_ok]
            cases b with
            | true =>
              obtain ⟨s, e, hl, hr⟩ := ih (i + 1) j lcs (by omega) (by omega)
              refine ⟨s, by simpa using e, hl, hr.trans ?_⟩
              exact List.take_sublist_take_left (by omega)
            | false =>
              obtain ⟨s, e, hl, hr⟩ := ih i (j + 1) lcs (by omega) (by omega)
              refine ⟨s, by simpa using e, hl.trans ?_, hr⟩
              exact List.take_sublist_take_left (by omega)

theorem findLcs_sub {left right : Bytes} (hl : left ≠ []) (hr : right ≠ []) :
    ∃ s, findLcs left right = .ok s ∧ s.Sublist left ∧ s.Sublist right := by
  have h1 := List.length_pos_iff.2 hl
  have h2 := List.length_pos_iff.2 hr
  obtain ⟨s, e, a, b⟩ := backtrack_sub left right (tableFrom none right left)
    (tableFrom_length _ _ _) (left.length + right.length) (left.length - 1 + 1) (right.length - 1 + 1) []
    (by omega) (by omega)
  refine ⟨s, ?_, a.trans (List.take_sublist _ _), b.trans (List.take_sublist _ _)⟩
  unfold findLcs
  rw [subChecked_ok h1, subChecked_ok h2]
  simpa using e

theorem findLcs_empty {left right : Bytes} (h : left = [] ∨ right = []) :
    findLcs left right = .error .overflow := by
  unfold findLcs
  rcases h with rfl | rfl
  · rfl
  · cases left with
    | nil => rfl
    | cons x xs => rfl

/-! ## The script -/

theorem skipTo_eq (c : UInt8) (l : Bytes) : ∃ sk, l = sk ++ (skipTo c l).2 ∧ sk.length = (skipTo c l).1 := by
  induction l with
  | nil => exact ⟨[], rfl, rfl⟩
  | cons x xs ih =>
    simp only [skipTo]
    split
    · exact ⟨[], rfl, rfl⟩
    · obtain ⟨sk, h1, h2⟩ := ih
      exact ⟨x :: sk, by simp [← h1], by simp [h2]⟩

theorem skipTo_sub {c : UInt8} {its l : Bytes} (h : (c :: its).Sublist l) : (c :: its).Sublist (skipTo c l).2 := by
  induction l with
  | nil => cases h
  | cons x xs ih =>
    simp only [skipTo]
    split
    · exact h
    · rename_i hx
      cases h with
      | cons _ h => exact ih h
      | cons_cons _ h => exact absurd rfl hx

theorem runBoth_eq (c : UInt8) (l r its : Bytes) (len : Nat) (hl : (c :: its).Sublist l)
    (hr : (c :: its).Sublist r) :
    ∃ com l' r' its', runBoth c l r its len = .ok (len + com.length, l', r', its') ∧
      l = com ++ l' ∧ r = com ++ r' ∧ its'.Sublist l' ∧ its'.Sublist r' ∧ its'.length ≤ its.length := by
  induction l generalizing c r its len with
  | nil => cases hl
  | cons x xs ih =>
    simp only [runBoth]
    by_cases hx : x = c
    · rw [if_pos hx]
      cases r with
      | nil => cases hr
      | cons y ys =>
        simp only
        by_cases hy : y = c
        · rw [if_pos hy]
          cases its with
          | nil => exact ⟨[c], xs, ys, [], rfl, by simp [hx], by simp [hy], by simp, by simp, by simp⟩
          | cons v its' =>
            simp only
            rw [hx] at hl; rw [hy] at hr
            obtain ⟨com, l', r', i', e, a, b, d1, d2, d3⟩ := ih v ys its' (len + 1)
              (List.cons_sublist_cons.1 hl) (List.cons_sublist_cons.1 hr)
            refine ⟨c :: com, l', r', i', ?_, by simp [hx, a], by simp [hy, b], d1, d2, by simp; omega⟩
            rw [e]; simp; omega
        · rw [if_neg hy]
          exact ⟨[], x :: xs, y :: ys, its, rfl, rfl, rfl, (List.sublist_cons_self _ _).trans hl,
            (List.sublist_cons_self _ _).trans hr, by simp⟩
    · rw [if_neg hx]
      exact ⟨[], x :: xs, r, its, rfl, rfl, rfl, (List.sublist_cons_self _ _).trans hl,
        (List.sublist_cons_self _ _).trans hr, by simp⟩

theorem pushPos_left (n : Nat) (ds : List Diff) (a l r : Bytes) (h : a.length = n) :
    applyScript (pushPos .left n ++ ds) (a ++ l) r = applyScript ds l r := by
  unfold pushPos
  split
  · simp [applyScript, ← h]
  · have : a = [] := by apply List.length_eq_zero_iff.1; omega
    simp [this]

theorem pushPos_right (n : Nat) (ds : List Diff) (a l r : Bytes) (h : a.length = n) :
    applyScript (pushPos .right n ++ ds) l (a ++ r) = a ++ applyScript ds l r := by
  unfold pushPos
  split
  · simp [applyScript, ← h]
  · have : a = [] := by apply List.length_eq_zero_iff.1; omega
    simp [this]

theorem pushPos_both (n : Nat) (ds : List Diff) (a l r : Bytes) (h : a.length = n) :
    applyScript (pushPos .both n ++ ds) (a ++ l) (a ++ r) = a ++ applyScript ds l r := by
  unfold pushPos
  split
  · simp [applyScript, ← h]
  · have : a = [] := by apply List.length_eq_zero_iff.1; omega
    simp [this]

theorem loop_eq (fuel : Nat) (l r its : Bytes) (hl : its.Sublist l) (hr : its.Sublist r) :
    ∃ ds l' r' lc rc, loop fuel l r its = .ok (ds, l', r') ∧ l = lc ++ l' ∧ r = rc ++ r' ∧
      ∀ tail lt rt, applyScript (ds ++ tail) (l ++ lt) (r ++ rt) =
        rc ++ applyScript tail (l' ++ lt) (r' ++ rt) := by
  induction fuel generalizing l r its with
  | zero => exact ⟨[], l, r, [], [], rfl, rfl, rfl, fun _ _ _ => rfl⟩
  | succ fuel ih =>
    cases its with
    | nil => exact ⟨[], l, r, [], [], rfl, rfl, rfl, fun _ _ _ => rfl⟩
    | cons c its =>
      obtain ⟨sl, a1, a2⟩ := skipTo_eq c l
      obtain ⟨sr, b1, b2⟩ := skipTo_eq c r
      obtain ⟨com, l1, r1, i1, e1, c1, c2, c3, c4, _⟩ :=
        runBoth_eq c _ _ its 0 (skipTo_sub hl) (skipTo_sub hr)
      obtain ⟨ds, l', r', lc, rc, e2, d1, d2, d3⟩ := ih l1 r1 i1 c3 c4
      refine ⟨pushPos .left (skipTo c l).1 ++ pushPos .right (skipTo c r).1 ++ pushPos .both (0 + com.length) ++ ds,
        l', r', sl ++ com ++ lc, sr ++ com ++ rc, ?_, ?_, ?_, ?_⟩
      · simp only [loop, e1, e2, except_bind_ok, except_pure]
      · conv => lhs; rw [a1, c1, d1]
        simp
      · conv => lhs; rw [b1, c2, d2]
        simp
      · intro tail lt rt
        have hl' : l ++ lt = sl ++ (com ++ (l1 ++ lt)) := by
          conv => lhs; rw [a1, c1]
          simp
        have hr' : r ++ rt = sr ++ (com ++ (r1 ++ rt)) := by
          conv => lhs; rw [b1, c2]
          simp
        rw [hl', hr']
        simp only [List.append_assoc]
        rw [pushPos_left _ _ _ _ _ a2, pushPos_right _ _ _ _ _ b2, pushPos_both _ _ _ _ _ (by simp), d3]

/-- the size of a step -/
def size : Diff → Nat
  | .left n => n
  | .both n => n
  | .right n => n

theorem pushPos_pos {mk : Nat → Diff} (h : ∀ n, size (mk n) = n) (n : Nat) : ∀ d ∈ pushPos mk n, 0 < size d := by
  intro d hd
  unfold pushPos at hd
  split at hd
  · simp only [List.mem_singleton] at hd; rw [hd, h]; assumption
  · simp at hd

theorem loop_pos (fuel : Nat) (l r its : Bytes) {res} (h : loop fuel l r its = .ok res) :
    ∀ d ∈ res.1, 0 < size d := by
  induction fuel generalizing l r its res with
  | zero => simp only [loop, Except.ok.injEq] at h; subst h; simp
  | succ fuel ih =>
    cases its with
    | nil => simp only [loop, Except.ok.injEq] at h; subst h; simp
    | cons c its =>
      simp only [loop] at h
      cases hb : runBoth c (skipTo c l).2 (skipTo c r).2 its 0 with
      | error e => rw [hb] at h; cases h
      | ok b =>
        rw [hb] at h
        simp only [except_bind_ok] at h
        cases hl : loop fuel b.2.1 b.2.2.1 b.2.2.2 with
        | error e => rw [hl] at h; cases h
        | ok rest =>
          rw [hl] at h
          simp only [except_bind_ok, except_pure, Except.ok.injEq] at h
          subst h
          intro d hd
          simp only [List.mem_append] at hd
          rcases hd with ((hd | hd) | hd) | hd
          · exact pushPos_pos (fun _ => rfl) _ d hd
          · exact pushPos_pos (fun _ => rfl) _ d hd
          · exact pushPos_pos (fun _ => rfl) _ d hd
          · exact ih _ _ _ hl d hd

theorem diffFrom_pos {left right : Bytes} {start stop : Nat} {ds : List Diff}
    (h : diffFrom left right start stop = .ok ds) : ∀ d ∈ ds, 0 < size d := by
  unfold diffFrom at h
  simp only at h
  generalize (left.take (left.length - stop)).drop start = l at h
  generalize (right.take (right.length - stop)).drop start = r at h
  cases h1 : findLcs l r with
  | error e => rw [h1] at h; cases h
  | ok lcs =>
    rw [h1] at h
    simp only [except_bind_ok] at h
    cases h2 : loop lcs.length l r lcs with
    | error e => rw [h2] at h; cases h
    | ok res =>
      rw [h2] at h
      simp only [except_bind_ok] at h
      cases h3 : subChecked l.length 1 with
      | error e => rw [h3] at h; cases h
      | ok n =>
        rw [h3] at h
        simp only [except_bind_ok] at h
        cases h4 : subChecked r.length 1 with
        | error e => rw [h4] at h; cases h
        | ok m =>
          rw [h4] at h
          simp only [except_bind_ok, except_pure, Except.ok.injEq] at h
          subst h
          intro d hd
          have hn : n = l.length - 1 := by
            unfold subChecked at h3; split at h3 <;> cases h3; rfl
          have hm : m = r.length - 1 := by
            unfold subChecked at h4; split at h4 <;> cases h4; rfl
          simp only [List.mem_append] at hd
          rcases hd with (((hd | hd) | hd) | hd) | hd
          · exact pushPos_pos (fun _ => rfl) _ d hd
          · exact loop_pos _ _ _ _ h2 d hd
          · split at hd
            · simp only [List.mem_singleton] at hd; subst hd; simp only [size]; omega
            · simp at hd
          · split at hd
            · simp only [List.mem_singleton] at hd; subst hd; simp only [size]; omega
            · simp at hd
          · exact pushPos_pos (fun _ => rfl) _ d hd

theorem diff_pos {left right : Bytes} {ds : List Diff} (h : diff left right = .ok ds) :
    ∀ d ∈ ds, 0 < size d := by
  unfold diff at h
  simp only at h
  split at h
  · exact diffFrom_pos h
  · split at h
    · cases h; exact pushPos_pos (fun _ => rfl) _
    · exact diffFrom_pos h

end DiffM

namespace PieceTable

/-- What an unfinished bulk update keeps. -/
structure Bulk (t0 t : PieceTable) : Prop where
  wf : t.WF
  action : t.lastAction = some .bulk
  undos : t.undos = t0.undos
  redos : t.redos = t0.redos
  original : t.original = t0.original
  added : ∃ x, t.added = t0.added ++ x
  newlines : t0.NewlinesOk → t.NewlinesOk

theorem action_bulk {t : PieceTable} (h : t.lastAction = some .bulk) (a : Action) : t.action a = t := by
  unfold PieceTable.action; rw [if_pos h]

theorem fold_apply {hs : Nat → StaleHandle} (hf : ∀ i, (hs i).follows = true) (text : Bytes) (t0 : PieceTable)
    (ds : List Diff) (hpos : ∀ d ∈ ds, 0 < DiffM.size d) (k : Nat) (t : PieceTable) (lo ro : Nat)
    (out lrest : Bytes) (hb : Bulk t0 t) (hc : t.content = out ++ lrest)
    (hlo : lo = out.length ∨ (lrest = [] ∧ out.length ≤ lo)) {st : PieceTable × Nat × Nat}
    (h : (ds.zipIdx k).foldlM (fun st d => applyOne (hs d.2) text st d.1) (t, lo, ro) = .ok st) :
    Bulk t0 st.1 ∧ st.1.content = out ++ applyScript ds lrest (text.drop ro) := by
  induction ds generalizing k t lo ro out lrest with
  | nil =>
    simp only [List.zipIdx_nil, List.foldlM_nil, except_pure, Except.ok.injEq] at h
    subst h
    exact ⟨hb, by simpa [applyScript] using hc⟩
  | cons d ds ih =>
    rw [List.zipIdx_cons, List.foldlM_cons] at h
    have hpos' : ∀ d ∈ ds, 0 < DiffM.size d := fun d hd => hpos d (by simp [hd])
    cases d with
    | left n =>
      simp only [applyOne] at h
      rcases delete_eq (hf k) hb.wf lo n with ⟨u, e1, heff, hu1, hu2, hu3, hu4, hu5⟩ | ⟨e1, _⟩ | ⟨e1, _⟩
      · rw [e1] at h
        simp only [except_bind_ok, except_pure] at h
        rw [action_bulk hb.action] at hu1 hu2 hu3
        obtain ⟨x, hx⟩ := hb.added
        have hb' : Bulk t0 u := ⟨heff.wf, by rw [hu3]; exact hb.action, by rw [hu1]; exact hb.undos,
          by rw [hu2]; exact hb.redos, by rw [hu4]; exact hb.original, ⟨x, by rw [hu5, hx]⟩,
          fun hh => heff.newlines (hb.newlines hh)⟩
        have hc' : u.content = out ++ lrest.drop n := by
          rw [heff.content, hc, cut]
          rcases hlo with h1 | ⟨h1, h2⟩
          · rw [h1]; simp
          · subst h1
            simp only [List.append_nil, List.drop_nil]
            rw [List.take_of_length_le h2, List.drop_eq_nil_of_le (by omega)]; simp
        have hlo' : lo = out.length ∨ (lrest.drop n = [] ∧ out.length ≤ lo) := by
          rcases hlo with h1 | ⟨h1, h2⟩
          · exact Or.inl h1
          · exact Or.inr ⟨by simp [h1], h2⟩
        exact ih hpos' (k + 1) u lo ro out (lrest.drop n) hb' hc' hlo' h
      · rw [e1] at h; cases h
      · rw [e1] at h; cases h
    | right n =>
      simp only [applyOne] at h
      have hn : 0 < n := hpos (.right n) (by simp)
      unfold strSliceR at h
      split at h
      · rename_i hsl
        simp only [except_bind_ok, except_pure] at h
        obtain ⟨_, hle, _⟩ := hsl
        have hxl : ((text.drop ro).take (ro + n - ro)).length = n := by simp; omega
        generalize hxe : (text.drop ro).take (ro + n - ro) = x at h hxl
        have hx : x ≠ [] := by intro h0; rw [h0] at hxl; simp at hxl; omega
        obtain ⟨heff, hu1, hu2, hu3, hu4, hu5⟩ := insert_eq hb.wf hx lo
        rw [action_bulk hb.action] at hu1 hu2 hu3
        obtain ⟨y, hy⟩ := hb.added
        have hb' : Bulk t0 (t.insert lo x) := ⟨heff.wf, by rw [hu3]; exact hb.action,
          by rw [hu1]; exact hb.undos, by rw [hu2]; exact hb.redos, by rw [hu4]; exact hb.original,
          ⟨y ++ x, by rw [hu5, hy]; simp⟩, fun hh => heff.newlines (hb.newlines hh)⟩
        have hc' : (t.insert lo x).content = (out ++ x) ++ lrest := by
          rw [heff.content, hc, splice]
          rcases hlo with h1 | ⟨h1, h2⟩
          · rw [h1]; simp
          · subst h1
            simp only [List.append_nil]
            rw [List.take_of_length_le h2, List.drop_eq_nil_of_le (by omega)]; simp
        have hlo' : lo + n = (out ++ x).length ∨ (lrest = [] ∧ (out ++ x).length ≤ lo + n) := by
          simp only [List.length_append, hxl]
          rcases hlo with h1 | ⟨h1, h2⟩
          · left; omega
          · exact Or.inr ⟨h1, by omega⟩
        obtain ⟨r1, r2⟩ := ih hpos' (k + 1) _ (lo + n) (ro + n) (out ++ x) lrest hb' hc' hlo' h
        refine ⟨r1, ?_⟩
        rw [r2]
        simp only [applyScript, List.drop_drop, List.append_assoc]
        rw [← hxe, show ro + n - ro = n by omega]
      · cases h
    | both n =>
      simp only [applyOne, except_bind_ok] at h
      have hc' : t.content = (out ++ lrest.take n) ++ lrest.drop n := by
        rw [hc, List.append_assoc, List.take_append_drop]
      have hlo' : lo + n = (out ++ lrest.take n).length ∨
          (lrest.drop n = [] ∧ (out ++ lrest.take n).length ≤ lo + n) := by
        simp only [List.length_append, List.length_take, List.drop_eq_nil_iff]
        rcases hlo with h1 | ⟨h1, h2⟩
        · rcases Nat.le_total n lrest.length with h3 | h3
          · left; omega
          · right; omega
        · subst h1; right; simp; omega
      obtain ⟨r1, r2⟩ := ih hpos' (k + 1) t (lo + n) (ro + n) _ _ hb hc' hlo' h
      refine ⟨r1, ?_⟩
      rw [r2]
      simp only [applyScript, List.drop_drop, List.append_assoc]

theorem applyDiff_eq {hs : Nat → StaleHandle} (hf : ∀ i, (hs i).follows = true) {t t' : PieceTable}
    (hr : t.Ready) {text : Bytes} (h : t.applyDiff hs text = .ok t') :
    ∃ s ds, t.text = .ok s ∧ DiffM.diff s text = .ok ds ∧
      t'.Ready ∧ t'.abs = { t.abs.snapshot with text := applyScript ds t.content text, group := none } ∧
      (t.NewlinesOk → t'.NewlinesOk) := by
  unfold applyDiff at h
  cases h1 : t.text with
  | error e => rw [h1] at h; cases h
  | ok s =>
    rw [h1] at h
    simp only [except_bind_ok] at h
    cases h2 : DiffM.diff s text with
    | error e => rw [h2] at h; cases h
    | ok ds =>
      rw [h2] at h
      simp only [except_bind_ok] at h
      have hsb : t.startBulk = { t.commit with lastAction := some .bulk } := by
        unfold startBulk PieceTable.action
        rw [if_neg hr.noBulk, if_pos hr.noBulk]
      have hwsb : t.startBulk.WF := action_WF hr.wf .bulk
      have hcsb : t.startBulk.content = t.content := action_content hr.wf .bulk
      have hb : Bulk t.startBulk t.startBulk := ⟨hwsb, by rw [hsb], rfl, rfl, rfl, ⟨[], by simp⟩, id⟩
      cases h3 : (ds.zipIdx).foldlM (fun st d => applyOne (hs d.2) text st d.1) (t.startBulk, 0, 0) with
      | error e => rw [h3] at h; cases h
      | ok st =>
        rw [h3] at h
        simp only [except_bind_ok, except_pure, Except.ok.injEq] at h
        subst h
        obtain ⟨b, c⟩ := fold_apply hf text t.startBulk ds (DiffM.diff_pos h2) 0 t.startBulk 0 0 []
          t.content hb (by simpa using hcsb) (Or.inl rfl) h3
        refine ⟨s, ds, rfl, h2, ⟨⟨b.wf.pieces, b.wf.undos, b.wf.redos⟩, by simp [endBulk]⟩, ?_, ?_⟩
        · obtain ⟨x, hx⟩ := b.added
          have horig : st.1.original = t.original := by rw [b.original, startBulk, action_original]
          have hadd : st.1.added = t.added ++ x := by rw [hx, startBulk, action_added]
          have hundo : st.1.undos.map (contentOf t.original (t.added ++ x)) =
              t.content :: t.undos.map (contentOf t.original t.added) := by
            have hch := hwsb.undos
            rw [startBulk, action_original, action_added] at hch
            rw [b.undos, map_contentOf_extend (l := t.startBulk.undos) hch]
            have : t.startBulk.undos = t.pieces.repack :: t.undos := by rw [hsb]; rfl
            rw [this, List.map_cons, (repack_chain hr.wf.pieces).2]
            rfl
          have hredo : st.1.redos = [] := by rw [b.redos, hsb]; rfl
          have e : st.1.endBulk.abs =
              { text := st.1.content, past := st.1.undos.map (contentOf st.1.original st.1.added),
                future := st.1.redos.map (contentOf st.1.original st.1.added), group := none } := rfl
          rw [e, c, horig, hadd, hundo, hredo]
          simp [Editor.snapshot, abs]
        · intro hnl
          have hnsb : t.startBulk.NewlinesOk := by
            unfold NewlinesOk; rw [hcsb, startBulk, action_newlines]; exact hnl
          exact b.newlines hnsb

end PieceTable
end Ced

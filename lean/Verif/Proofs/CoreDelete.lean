import Verif.Proofs.CoreOrder
import Verif.Props.Coords
import Batteries.Data.List.Basic

/-! # Deleting the selections -/

namespace Ced
open Spec

theorem forall2_imp {α β : Type} {P Q : α → β → Prop} {as : List α} {bs : List β} (h : List.Forall₂ P as bs)
    (hi : ∀ a ∈ as, ∀ b, P a b → Q a b) : List.Forall₂ Q as bs := by
  induction h with
  | nil => exact .nil
  | cons hp _ ih =>
    exact .cons (hi _ List.mem_cons_self _ hp) (ih fun a ha => hi a (List.mem_cons_of_mem _ ha))

namespace World
variable {env : Env} {w w' : World}

theorem deleteStep_ok {st st' : World × List Bytes × List Str} {x : Str × List Selection}
    (h : deleteStep env st x = .ok st') :
    ∃ b b' dl, st.1.buffers.get x.1 = some b ∧ deleteInBuffer env b x.2 = .ok (b', dl) ∧
      st' = ({ st.1 with buffers := st.1.buffers.set x.1 b' }, st.2.1 ++ dl, if dl = [] then st.2.2 else st.2.2 ++ [x.1]) := by
  unfold deleteStep at h
  obtain ⟨b, hb, h⟩ := bind_inv h
  obtain ⟨⟨b', dl⟩, hd, h⟩ := bind_inv h
  cases h
  exact ⟨b, b', dl, unwrap_inv hb, hd, rfl⟩

/-- the loop of deletions -/
theorem deleteAll_ok {m : Assoc Str (List Selection)} (hn : (Assoc.keys m).Nodup) {st st' : World × List Bytes × List Str}
    (h : m.foldlM (deleteStep env) st = .ok st') :
    st'.1 = { st.1 with buffers := st'.1.buffers } ∧
    (∀ b, b ∉ Assoc.keys m → st'.1.buffers.get b = st.1.buffers.get b) ∧
    ∃ dls, st'.2.1 = st.2.1 ++ dls.flatten ∧
      List.Forall₂ (fun kv dl => ∃ b b', st.1.buffers.get kv.1 = some b ∧ deleteInBuffer env b kv.2 = .ok (b', dl) ∧
        st'.1.buffers.get kv.1 = some b') m dls ∧
      st'.2.2 = st.2.2 ++ (List.zip m dls).filterMap fun p => if p.2 = [] then none else some p.1.1 := by
  induction m generalizing st with
  | nil => cases h; exact ⟨rfl, fun _ _ => rfl, [], by simp, .nil, by simp⟩
  | cons x m ih =>
    rw [List.foldlM_cons] at h
    obtain ⟨st1, h1, h⟩ := bind_inv h
    obtain ⟨b, b', dl, e1, e2, rfl⟩ := deleteStep_ok h1
    have hn' : x.1 ∉ Assoc.keys m ∧ (Assoc.keys m).Nodup := by
      unfold Assoc.keys at hn ⊢
      rw [List.map_cons, List.nodup_cons] at hn
      exact hn
    obtain ⟨a1, a2, dls, a3, a4, a5⟩ := ih hn'.2 h
    refine ⟨?_, ?_, dl :: dls, ?_, ?_, ?_⟩
    · rw [a1]
    · intro n hnx
      have : n ≠ x.1 ∧ n ∉ Assoc.keys m := by
        unfold Assoc.keys at hnx ⊢
        rw [List.map_cons, List.mem_cons] at hnx
        exact ⟨fun e => hnx (Or.inl e), fun e => hnx (Or.inr e)⟩
      rw [a2 n this.2]
      exact Assoc.get_set_ne _ this.1
    · rw [a3]; simp
    · refine .cons ⟨b, b', e1, e2, ?_⟩ (forall2_imp a4 ?_)
      · rw [a2 x.1 hn'.1]; exact Assoc.get_set_self _ _ _
      · rintro kv hkv d ⟨c, c', h1, h2, h3⟩
        refine ⟨c, c', ?_, h2, h3⟩
        have hne : kv.1 ≠ x.1 := by
          intro e
          exact hn'.1 (by rw [← e]; unfold Assoc.keys; exact List.mem_map.2 ⟨kv, hkv, rfl⟩)
        have h1 : Assoc.get (st.1.buffers.set x.1 b') kv.1 = some c := h1
        rw [Assoc.get_set, if_neg hne] at h1
        exact h1
    · rw [a5]
      by_cases hd : dl = []
      · simp [hd]
      · simp [hd]

/-- the loop of clamping -/
theorem clampAll_ok {c : Nat} {names : List Str} (hn : names.Nodup) (h : names.foldlM (fun w name => clampSelections w c name) w = .ok w')
    {x : ClientContext} {m : Assoc Str (List Selection)} (hx : w.clients.map.get c = some x) (hm : x.selections.get x.view.key = some m) :
    w'.buffers = w.buffers ∧ w'.views = w.views ∧ w'.out = w.out ∧ w'.clients.stack = w.clients.stack ∧
    (∀ d, d ≠ c → w'.clients.map.get d = w.clients.map.get d) ∧
    ∃ x' m', w'.clients.map.get c = some x' ∧ x'.view = x.view ∧ x'.selections.get x.view.key = some m' ∧
      (∀ k, k ≠ x.view.key → x'.selections.get k = x.selections.get k) ∧
      (∀ b, b ∉ names → m'.get b = m.get b) ∧
      ∀ b ∈ names, ∃ buf n l, w.buffers.get b = some buf ∧ buf.content.maxOffset = .ok n ∧ m.get b = some l ∧
        m'.get b = some (l.map (Selection.clampTo · n)) := by
  induction names generalizing w x m with
  | nil => cases h; exact ⟨rfl, rfl, rfl, rfl, fun _ _ => rfl, x, m, hx, rfl, hm, fun _ _ => rfl, fun _ _ => rfl, by simp⟩
  | cons a names ih =>
    rw [List.foldlM_cons] at h
    obtain ⟨w1, h1, h⟩ := bind_inv h
    unfold clampSelections at h1
    obtain ⟨b, hb, h1⟩ := bind_inv h1
    obtain ⟨n, hmax, h1⟩ := bind_inv h1
    obtain ⟨ctx, hc, h1⟩ := bind_inv h1
    obtain ⟨mm, hmm, h1⟩ := bind_inv h1
    obtain ⟨l, hl, h1⟩ := bind_inv h1
    have hc := unwrap_inv hc
    have hmm := unwrap_inv hmm
    rw [hx] at hc
    cases hc
    rw [hm] at hmm
    cases hmm
    cases h1
    have hl := unwrap_inv hl
    obtain ⟨hna, hnn⟩ := List.nodup_cons.1 hn
    obtain ⟨a1, a2, a3, a4, a5, x', m', a6, a7, a8, a9, a10, a11⟩ := ih hnn h
      (Assoc.get_set_self w.clients.map c _) (Assoc.get_set_self x.selections x.view.key _)
    refine ⟨a1, a2, a3, a4, ?_, x', m', a6, a7, a8, ?_, ?_, ?_⟩
    · intro d hd; rw [a5 d hd]; exact Assoc.get_set_ne _ hd
    · intro k hk
      rw [a9 k hk]; exact Assoc.get_set_ne _ hk
    · intro n' hn'
      rw [List.mem_cons] at hn'
      rw [a10 n' (fun e => hn' (Or.inr e))]
      exact Assoc.get_set_ne _ (fun e => hn' (Or.inl e))
    · intro n' hn'
      rcases List.mem_cons.1 hn' with rfl | hn2
      · refine ⟨b, n, l, Assoc.at_inv hb, hmax, hl, ?_⟩
        rw [a10 _ hna]; exact Assoc.get_set_self _ _ _
      · obtain ⟨buf, k, l', h1, h2, h3, h4⟩ := a11 n' hn2
        refine ⟨buf, k, l', h1, h2, ?_, h4⟩
        have h3 : Assoc.get (m.set a _) n' = some l' := h3
        rw [Assoc.get_set, if_neg (by rintro rfl; exact hna hn2)] at h3
        exact h3

end World
end Ced

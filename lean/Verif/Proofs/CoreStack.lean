import Verif.Proofs.CoreTidy

/-! Auxiliary lemmas: every registered view has a place in the order of use, as long as views are selected by identifier. -/

namespace Ced
open Spec

namespace World
variable {env : Env} {w w' : World}

/-- every registered view is in the order of use -/
def Ranked (w : World) : Prop := ∀ k, w.views.map.has k = true → k ∈ w.views.stack

theorem ranked_same (t : Ranked w) (h : w'.views = w.views) : Ranked w' := by unfold Ranked; rw [h]; exact t

theorem ranked_addView (i : Inv w) (t : Ranked w) {v : View} (h : w.addView v = .ok w') : Ranked w' := by
  obtain ⟨st, e, hst⟩ := addView_ok w v
  rw [e] at h
  cases h
  intro k hk
  have hk : Assoc.has (w.views.map.set v.key v) k = true := hk
  show k ∈ v.key :: st
  rw [hst i.nodup]
  rw [Assoc.has_set] at hk
  by_cases e : k = v.key
  · simp [e]
  · have := t k (by simpa [e] using hk)
    simp [e, this]

theorem ranked_closed (i : Inv w) (t : Ranked w) {id : Str} {v : View} (hd : Closed id v w w') : Ranked w' := by
  intro k hk
  rw [hd.map] at hk
  by_cases he : w.views.map.del id = []
  · rw [if_pos he] at hk
    have hh := hd.order' he
    have : k = lastResort.key := by
      unfold Assoc.has at hk
      simp only [Assoc.get] at hk
      split at hk
      · rename_i e; exact e.symm
      · cases hk
    rw [this]
    cases hs : w'.views.stack with
    | nil => rw [hs] at hh; cases hh
    | cons a l => rw [hs] at hh; cases hh; simp
  · rw [if_neg he] at hk
    rw [hd.order i.nodup he, List.mem_filter]
    rw [Assoc.has_del] at hk
    simp at hk
    exact ⟨t k hk.2, by simpa using hk.1⟩

theorem ranked_deleteView (i : Inv w) (t : Ranked w) {id : Str} {e : Option CoreError} (h : w.deleteView env id = .ok (w', e)) :
    Ranked w' := by
  rcases deleteView_ok i.mode i.cnodup h with ⟨_, _, rfl⟩ | ⟨v, _, _, _, hd⟩
  · exact t
  · exact ranked_closed i t hd

theorem ranked_modifyView (i : Inv w) (t : Ranked w) {id : Str} {f : View → View}
    (hf : ∀ v, w.views.map.get id = some v → View.WF (f v) ∧ ∀ b ∈ (f v).buffers, w.buffers.has b = true)
    (h : w.modifyView env id f = .ok w') : Ranked w' := by
  unfold modifyView at h
  obtain ⟨v, hv, h⟩ := bind_inv h
  have hv := Assoc.at_inv hv
  obtain ⟨hwf, hb⟩ := hf v hv
  dsimp only at h
  split at h
  · split at h
    · rename_i hem
      obtain ⟨w1, h1, h⟩ := bind_inv h
      obtain ⟨r, hd, h⟩ := bind_inv h
      have i0 : Inv (w.mapClients fun _ => moveSelections v.key (f v).key) :=
        inv_mapClients i fun _ ctx => moveSelections_view _ _ ctx
      have i1 := inv_addView i0 hwf (by intro e; rw [e] at hem; cases hem) hb h1
      have t1 := ranked_addView i0 (ranked_same t rfl) h1
      split at h
      · cases h; exact ranked_deleteView i1 t1 hd
      · cases h
    · obtain ⟨w1, h1, h⟩ := bind_inv h
      cases h1
      obtain ⟨r, hd, h⟩ := bind_inv h
      split at h
      · cases h; exact ranked_deleteView i t hd
      · cases h
  · cases h; exact t

theorem ranked_view (t : Ranked w) {c : Nat} {id : Str} {e : Option CoreError}
    (ho : w.views.map.has id = true ∨ w.buffers.has id = false) (h : w.view env c id = .ok (w', e)) : Ranked w' := by
  unfold view at h
  split at h
  · obtain ⟨v, hv, h⟩ := bind_inv h
    obtain ⟨ctx, hc, h⟩ := bind_inv h
    obtain ⟨w1, hn, h⟩ := bind_inv h
    cases h
    exact ranked_same t (notify_same hn).2
  · rename_i hx
    split at h
    · rename_i hy
      rcases ho with h1 | h1
      · exact absurd h1 hx
      · unfold bufferExists at hy; rw [h1] at hy; cases hy
    · cases h; exact t

theorem ranked_edit (i : Inv w) (t : Ranked w) {name : Str} (hn : '{' ∉ name) {c : Nat} {sc : Bool}
    (h : w.edit env c name sc = .ok w') : Ranked w' := by
  unfold edit at h
  obtain ⟨r, ho, h⟩ := bind_inv h
  have hv := (openForEdit_same ho).2
  have i1 := (inv_openForEdit i hn ho).1
  obtain ⟨w2, ha, h⟩ := bind_inv h
  have t2 := ranked_addView i1 (ranked_same t hv) ha
  obtain ⟨r3, hv, h⟩ := bind_inv h
  have t3 := ranked_view t2 (Or.inl (by
    obtain ⟨st, e, _⟩ := addView_ok r.1 (View.forBuffer name)
    rw [e] at ha
    cases ha
    show Assoc.has (Assoc.set _ _ _) _ = true
    rw [Assoc.has_set]; simp)) hv
  dsimp only at h
  split at h
  · cases h
  · obtain ⟨w4, hd, h⟩ := bind_inv h
    have t4 := ranked_same t3 (debug_ok hd).views
    split at h
    · exact ranked_same t4 (notify_same h).2
    · cases h; exact t4

theorem views_move {c : Nat} {dir : CursorTarget} {ext : Bool} (h : w.moveCursor env c dir ext = .ok w') : w'.views = w.views := by
  unfold moveCursor at h
  obtain ⟨ctx, hc, h⟩ := bind_inv h
  obtain ⟨sels, hs, h⟩ := bind_inv h
  obtain ⟨sels', hm, h⟩ := bind_inv h
  dsimp only at h
  split at h
  · exact (notify_same h).2
  · cases h; rfl

theorem views_clamp {c : Nat} {name : Str} (h : w.clampSelections c name = .ok w') : w'.views = w.views := by
  unfold clampSelections at h
  obtain ⟨b, hb, h⟩ := bind_inv h
  obtain ⟨m, hm, h⟩ := bind_inv h
  obtain ⟨ctx, hc, h⟩ := bind_inv h
  obtain ⟨ss, hs, h⟩ := bind_inv h
  obtain ⟨sels, hl, h⟩ := bind_inv h
  cases h
  rfl

theorem ranked_deleteSelection (t : Ranked w) {c : Nat} {r : List Bytes}
    (h : w.deleteSelection env c = .ok (w', r)) : Ranked w' := by
  unfold deleteSelection at h
  obtain ⟨ctx, hc, h⟩ := bind_inv h
  obtain ⟨sels, hs, h⟩ := bind_inv h
  obtain ⟨⟨w1, del, mod⟩, h1, h⟩ := bind_inv h
  have s1 : Ranked w1 := foldlM_ind (P := fun st => Ranked st.1) h1 t fun x _ a a' ia ha => by
    unfold deleteStep at ha
    obtain ⟨b, hb, ha⟩ := bind_inv ha
    obtain ⟨r, hr, ha⟩ := bind_inv ha
    cases ha
    exact ranked_same ia rfl
  obtain ⟨w2, h2, h⟩ := bind_inv h
  have s2 : Ranked w2 := foldlM_ind (P := Ranked) h2 s1 fun x _ a a' ia ha => ranked_same ia (views_clamp ha)
  split at h
  · obtain ⟨w3, h3, h⟩ := bind_inv h
    cases h
    exact ranked_same s2 (notify_same h3).2
  · cases h; exact s2

theorem ranked_start {cwd : Path} {args cwdText : Str} (h : World.start env cwd args cwdText = .ok w) : Ranked w := by
  unfold start at h
  obtain ⟨w1, h1, h⟩ := bind_inv h
  obtain ⟨w2, h2, h⟩ := bind_inv h
  have hvw : w2.views = StackMap.new := (debug_ok h2).views.trans (debug_ok h1).views
  dsimp only at h
  obtain ⟨st, e, hst⟩ := addView_ok (w2.openScratch BUFFER_SCRATCH [])
    ((View.addLens [] BUFFER_DEBUG .whole).addLens BUFFER_SCRATCH .whole)
  rw [e] at h
  cases h
  intro k hk
  have hk : Assoc.has (Assoc.set w2.views.map _ _) k = true := hk
  rw [hvw, Assoc.has_set] at hk
  show k ∈ _ :: st
  have : k = ((View.addLens [] BUFFER_DEBUG .whole).addLens BUFFER_SCRATCH .whole).key := by
    simpa [StackMap.new, Assoc.has, Assoc.get] using hk
  rw [this]; simp

theorem ranked_op (i : Inv w) (t : Ranked w) {op : CoreOp} (ho : Ordinary w op) (h : op.run env w = .ok w') : Ranked w' := by
  obtain ⟨hn, hov, _⟩ := ho
  cases op with
  | join id x =>
    have h : w.addClient env id x = .ok w' := h
    unfold addClient at h
    obtain ⟨context, hctx, h⟩ := bind_inv h
    obtain ⟨r, hins, h⟩ := bind_inv h
    obtain ⟨w1, hd, h⟩ := bind_inv h
    cases h
    exact ranked_same (w := w) t (debug_ok hd).views
  | leave id =>
    have h : w.removeClient env id = .ok w' := h
    unfold removeClient at h
    exact ranked_same (w := w) t (debug_ok h).views
  | edit c name x => exact ranked_edit i t (hn name rfl) h
  | scratch c name content =>
    exact ranked_edit (w := w.openScratch name content) (inv_setBuffer i (hn name rfl) _ w.out) (ranked_same t rfl) (hn name rfl) h
  | view c id => obtain ⟨r, hr, rfl⟩ := map_inv h; exact ranked_view t (hov c id rfl) hr
  | viewDelete c =>
    have h : w.deleteCurrentView env c = .ok w' := h
    unfold deleteCurrentView at h
    obtain ⟨ctx, hc, h⟩ := bind_inv h
    obtain ⟨r, hd, h⟩ := bind_inv h
    dsimp only at h
    split at h
    · cases h; exact ranked_deleteView i t hd
    · cases h
  | viewAdd c b =>
    obtain ⟨r, hr, rfl⟩ := map_inv h
    unfold addToCurrentView at hr
    split at hr
    · cases hr; exact t
    · rename_i hb
      obtain ⟨ctx, hc, hr⟩ := bind_inv hr
      obtain ⟨w1, hm, hr⟩ := bind_inv hr
      cases hr
      exact ranked_modifyView i t (addLens_live i (by simpa [bufferExists] using hb)) hm
  | viewRemove c b =>
    obtain ⟨r, hr, rfl⟩ := map_inv h
    unfold removeFromCurrentView at hr
    split at hr
    · cases hr; exact t
    · obtain ⟨ctx, hc, hr⟩ := bind_inv hr
      obtain ⟨w1, hm, hr⟩ := bind_inv hr
      cases hr
      exact ranked_modifyView i t (removeLens_live i) hm
  | move c d e => exact ranked_same t (views_move h)
  | deleteSelection c => obtain ⟨r, hr, rfl⟩ := map_inv h; exact ranked_deleteSelection t hr
  | append b x xs => obtain ⟨o, rfl⟩ := appendTo_ok (by exact h); exact ranked_same t rfl
  | debug x => exact ranked_same t (debug_ok (by exact h)).views
  | message c x =>
    have h : w.message env c x = .ok w' := h
    unfold message at h
    obtain ⟨w1, h1, h⟩ := bind_inv h
    cases h
    obtain ⟨o, rfl⟩ := appendTo_ok h1
    cases c <;> exact ranked_same t rfl
  | error c t1 t2 =>
    have h : w.error env c t1 t2 = .ok w' := h
    unfold error at h
    obtain ⟨w1, h1, h⟩ := bind_inv h
    cases h
    obtain ⟨o, rfl⟩ := appendTo_ok h1
    cases c <;> exact ranked_same t rfl
  | notify c n => cases h; exact ranked_same t rfl

theorem ranked_history (h : CoreHistory Ordinary w) : Ranked w := by
  have key : Inv w ∧ Ranked w := by
    induction h with
    | start h => exact ⟨inv_start h, ranked_start h⟩
    | step _ ho _ h ih => exact ⟨inv_op ih.1 ho.1 h, ranked_op ih.1 ih.2 ho h⟩
  exact key.2

end World
end Ced

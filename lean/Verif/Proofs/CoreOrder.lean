import Verif.Proofs.CoreMaps

/-! # The order in which clients joined -/

namespace Ced
open Spec

namespace World
variable {env : Env} {w w' : World}

theorem run_history {ok : World → CoreOp → Prop} {ops : List CoreOp} (h : CoreRun ok ops w) : CoreHistory ok w := by
  induction h with
  | start h => exact .start h
  | step _ hok hf h ih => exact .step ih hok hf h

theorem history_run {ok : World → CoreOp → Prop} (h : CoreHistory ok w) : ∃ ops, CoreRun ok ops w := by
  induction h with
  | start h => exact ⟨[], .start h⟩
  | step _ hok hf h ih => obtain ⟨ops, r⟩ := ih; exact ⟨_, .step r hok hf h⟩

theorem stack_addView {v : View} (h : w.addView v = .ok w') : w'.clients.stack = w.clients.stack := by
  unfold addView at h
  obtain ⟨r, _, h⟩ := bind_inv h
  cases h; rfl

theorem stack_notify {ids : List Nat} (h : w.notifyViewUpdate env ids = .ok w') : w'.clients.stack = w.clients.stack := by
  obtain ⟨p, _, rfl⟩ := notify_ok h; rfl

theorem stack_deleteView (i : Inv w) {id : Str} {e : Option CoreError} (h : w.deleteView env id = .ok (w', e)) :
    w'.clients.stack = w.clients.stack := by
  rcases deleteView_ok i.mode i.cnodup h with ⟨_, _, rfl⟩ | ⟨_, _, _, _, hc⟩
  · rfl
  · exact hc.stack

theorem stack_modifyView (i : Inv w) {id : Str} {f : View → View} (hf : ∀ v, w.views.map.get id = some v → View.WF (f v) ∧ ∀ b ∈ (f v).buffers, w.buffers.has b = true)
    (h : w.modifyView env id f = .ok w') : w'.clients.stack = w.clients.stack := by
  unfold modifyView at h
  obtain ⟨v, hv, h⟩ := bind_inv h
  obtain ⟨hwf, hb⟩ := hf v (Assoc.at_inv hv)
  dsimp only at h
  split at h
  · split at h
    · rename_i hem
      obtain ⟨w1, h1, h⟩ := bind_inv h
      obtain ⟨r, hd, h⟩ := bind_inv h
      have i0 : Inv (w.mapClients fun _ => moveSelections v.key (f v).key) :=
        inv_mapClients i fun _ ctx => moveSelections_view _ _ ctx
      have i1 := inv_addView i0 hwf (by intro e; rw [e] at hem; cases hem) hb h1
      have e := (stack_deleteView i1 hd).trans (stack_addView h1)
      split at h
      · cases h; exact e
      · cases h
    · obtain ⟨w1, h1, h⟩ := bind_inv h
      cases h1
      obtain ⟨r, hd, h⟩ := bind_inv h
      have e := stack_deleteView i hd
      split at h
      · cases h; exact e
      · cases h
  · cases h; rfl

theorem stack_view {c : Nat} {id : Str} {e : Option CoreError} (h : w.view env c id = .ok (w', e)) :
    w'.clients.stack = w.clients.stack := by
  unfold view at h
  split at h
  · obtain ⟨v, hv, h⟩ := bind_inv h
    obtain ⟨ctx, hc, h⟩ := bind_inv h
    obtain ⟨w1, h1, h⟩ := bind_inv h
    cases h
    have := stack_notify h1; exact this
  · split at h
    · obtain ⟨ctx, hc, h⟩ := bind_inv h
      obtain ⟨w1, h1, h⟩ := bind_inv h
      cases h
      have := stack_notify h1; exact this
    · cases h; rfl

theorem stack_edit {c : Nat} {name : Str} {sc : Bool} (h : w.edit env c name sc = .ok w') :
    w'.clients.stack = w.clients.stack := by
  unfold edit at h
  obtain ⟨⟨w1, n⟩, h1, h⟩ := bind_inv h
  obtain ⟨w2, h2, h⟩ := bind_inv h
  obtain ⟨⟨w3, e⟩, h3, h⟩ := bind_inv h
  have e1 : w3.clients.stack = w.clients.stack := by
    rw [stack_view h3, stack_addView h2, (openForEdit_same h1).1]
  cases e with
  | some _ => cases h
  | none =>
    dsimp only at h
    obtain ⟨w4, h4, h⟩ := bind_inv h
    have e4 : w4.clients.stack = w3.clients.stack := by rw [(debug_ok h4).clients]
    split at h
    · rw [stack_notify h, e4, e1]
    · cases h; rw [e4, e1]

theorem stack_deleteSelection {c : Nat} {r : List Bytes} (h : w.deleteSelection env c = .ok (w', r)) :
    w'.clients.stack = w.clients.stack := by
  unfold deleteSelection at h
  obtain ⟨ctx, hc, h⟩ := bind_inv h
  obtain ⟨sels, hs, h⟩ := bind_inv h
  obtain ⟨⟨w1, del, mod⟩, h1, h⟩ := bind_inv h
  have t1 : w1.clients.stack = w.clients.stack :=
    foldlM_ind (P := fun st => st.1.clients.stack = w.clients.stack) h1 rfl fun x _ a a' ia ha => by
      unfold deleteStep at ha
      obtain ⟨b, hb, ha⟩ := bind_inv ha
      obtain ⟨r, hr, ha⟩ := bind_inv ha
      cases ha
      exact ia
  obtain ⟨w2, h2, h⟩ := bind_inv h
  have t2 : w2.clients.stack = w.clients.stack :=
    foldlM_ind (P := fun a => a.clients.stack = w.clients.stack) h2 t1 fun x _ a a' ia ha => by
      unfold clampSelections at ha
      obtain ⟨b, hb, ha⟩ := bind_inv ha
      obtain ⟨n, hn, ha⟩ := bind_inv ha
      obtain ⟨ctx, hc, ha⟩ := bind_inv ha
      obtain ⟨m, hm, ha⟩ := bind_inv ha
      obtain ⟨l, hl, ha⟩ := bind_inv ha
      cases ha
      exact ia
  split at h
  · obtain ⟨w3, h3, h⟩ := bind_inv h
    cases h
    rw [stack_notify h3, t2]
  · cases h; exact t2

theorem present_run {ops : List CoreOp} (h : CoreRun CleanName ops w) : w.clients.stack = presentClients ops := by
  induction h with
  | start h => exact (start_clients h).2
  | @step env ops w w' op r hok hf h ih =>
    have i := inv_history (fun _ _ h => h) (run_history r)
    cases op with
    | join id s =>
      have h : w.addClient env id s = .ok w' := h
      unfold addClient at h
      obtain ⟨context, hctx, h⟩ := bind_inv h
      obtain ⟨r, hins, h⟩ := bind_inv h
      obtain ⟨w1, hd, h⟩ := bind_inv h
      cases h
      obtain ⟨st, e, hst⟩ := StackMap.insert_ok w.clients id context
      rw [e] at hins
      cases hins
      show w1.clients.stack = id :: (presentClients ops).filter (· ≠ id)
      rw [(debug_ok hd).clients, ← ih, ← hst i.csnodup]
    | leave id =>
      have h : w.removeClient env id = .ok w' := h
      unfold removeClient at h
      rw [(debug_ok h).clients]
      show (w.clients.remove id).1.stack = (presentClients ops).filter (· ≠ id)
      rw [← ih]
      rcases remove_cases w.clients id with ⟨hn, e⟩ | ⟨_, _, e⟩
      · rw [e, List.filter_eq_self.2]
        intro a ha
        simp only [ne_eq, decide_not, Bool.not_eq_eq_eq_not, Bool.not_true, decide_eq_false_iff_not]
        rintro rfl; exact hn ha
      · exact e i.csnodup
    | edit c n s => exact (stack_edit h).trans ih
    | scratch c n x => exact (stack_edit (w := w.openScratch n x) h).trans ih
    | view c id =>
      obtain ⟨⟨w1, e⟩, h1, rfl⟩ := map_inv h
      exact (stack_view h1).trans ih
    | viewDelete c =>
      have h : w.deleteCurrentView env c = .ok w' := h
      unfold deleteCurrentView at h
      obtain ⟨ctx, _, h⟩ := bind_inv h
      obtain ⟨⟨w1, e⟩, h1, h⟩ := bind_inv h
      have t1 := (stack_deleteView i h1).trans ih
      cases e with
      | none => cases h; exact t1
      | some _ => cases h
    | viewAdd c b =>
      obtain ⟨⟨w1, e⟩, h1, rfl⟩ := map_inv h
      unfold addToCurrentView at h1
      split at h1
      · cases h1; exact ih
      · rename_i hb
        obtain ⟨ctx, _, h1⟩ := bind_inv h1
        obtain ⟨w2, h2, h1⟩ := bind_inv h1
        cases h1
        exact (stack_modifyView i (addLens_live i (by simpa [bufferExists] using hb)) h2).trans ih
    | viewRemove c b =>
      obtain ⟨⟨w1, e⟩, h1, rfl⟩ := map_inv h
      unfold removeFromCurrentView at h1
      split at h1
      · cases h1; exact ih
      · obtain ⟨ctx, _, h1⟩ := bind_inv h1
        obtain ⟨w2, h2, h1⟩ := bind_inv h1
        cases h1
        exact (stack_modifyView i (removeLens_live i) h2).trans ih
    | move c d x =>
      have h : w.moveCursor env c d x = .ok w' := h
      unfold moveCursor at h
      obtain ⟨ctx, hc, h⟩ := bind_inv h
      obtain ⟨m, hm, h⟩ := bind_inv h
      obtain ⟨m', hm', h⟩ := bind_inv h
      dsimp only at h
      split at h
      · exact (stack_notify h).trans ih
      · cases h; exact ih
    | deleteSelection c =>
      obtain ⟨⟨w1, r⟩, h1, rfl⟩ := map_inv h
      exact (stack_deleteSelection h1).trans ih
    | append b x xs => obtain ⟨o, rfl⟩ := appendTo_ok h; exact ih
    | debug x => exact (congrArg StackMap.stack (debug_ok h).clients).trans ih
    | message c x =>
      have h : w.message env c x = .ok w' := h
      unfold message at h
      obtain ⟨w1, h1, h⟩ := bind_inv h
      cases h
      obtain ⟨o, rfl⟩ := appendTo_ok h1
      cases c <;> exact ih
    | error c a x =>
      have h : w.error env c a x = .ok w' := h
      unfold error at h
      obtain ⟨w1, h1, h⟩ := bind_inv h
      cases h
      obtain ⟨o, rfl⟩ := appendTo_ok h1
      cases c <;> exact ih
    | notify c n => cases h; exact ih

end World
end Ced

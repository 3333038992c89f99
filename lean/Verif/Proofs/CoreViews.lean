import Verif.Proofs.CoreReach

/-! # A property of views kept by the operations on views holds of every view of the editor -/

namespace Ced
open Spec

/-- A property that holds of the views the editor makes. -/
structure ViewClosed (P : View → Prop) : Prop where
  empty : P []
  add : ∀ v b, P v → P (v.addLens b .whole)
  remove : ∀ v b, P v → P (v.removeLensGroup b)

namespace World
variable {env : Env} {w w' : World} {P : View → Prop}

/-- the property holds of all views, and of the views of the clients -/
structure AllViews (P : View → Prop) (w : World) : Prop where
  views : ∀ k v, w.views.map.get k = some v → P v
  clients : ∀ c ctx, w.clients.map.get c = some ctx → P ctx.view

theorem views_same (a : AllViews P w) (h1 : w'.clients = w.clients) (h2 : w'.views = w.views) : AllViews P w' :=
  ⟨by rw [h2]; exact a.views, by rw [h1]; exact a.clients⟩

theorem views_logged (a : AllViews P w) (l : Logged w w') : AllViews P w' := views_same a l.clients l.views

theorem views_debug (a : AllViews P w) {t : Str} (h : w.debug env t = .ok w') : AllViews P w' := views_logged a (debug_ok h)

theorem views_notify (a : AllViews P w) {ids : List Nat} (h : w.notifyViewUpdate env ids = .ok w') : AllViews P w' := by
  obtain ⟨o, _, rfl⟩ := notify_ok h
  exact views_same a rfl rfl

theorem views_append (a : AllViews P w) {name : Str} {t : Bytes} (h : w.appendTo env name t = .ok w') : AllViews P w' := by
  obtain ⟨o, rfl⟩ := appendTo_ok h
  exact views_same a rfl rfl

theorem views_mapClients (a : AllViews P w) {f : Nat → ClientContext → ClientContext}
    (hf : ∀ c ctx, P ctx.view → P (f c ctx).view) : AllViews P (w.mapClients f) := by
  refine ⟨a.views, fun c ctx hc => ?_⟩
  have hc : Assoc.get (w.clients.map.mapVals f) c = some ctx := hc
  rw [Assoc.get_mapVals] at hc
  cases hg : w.clients.map.get c with
  | none => rw [hg] at hc; cases hc
  | some x => rw [hg] at hc; cases hc; exact hf c x (a.clients c x hg)

theorem views_setClient (a : AllViews P w) {c : Nat} {ctx : ClientContext} (h : P ctx.view) {st : List Nat} :
    AllViews P { w with clients := { stack := st, map := w.clients.map.set c ctx } } := by
  refine ⟨a.views, fun d x hd => ?_⟩
  have hd : Assoc.get (w.clients.map.set c ctx) d = some x := hd
  rw [Assoc.get_set] at hd
  split at hd
  · cases hd; exact h
  · exact a.clients d x hd

theorem views_addView (a : AllViews P w) {v : View} (hv : P v) (h : w.addView v = .ok w') : AllViews P w' := by
  obtain ⟨st, e, _⟩ := addView_ok w v
  rw [e] at h
  cases h
  refine views_mapClients (w := { w with views := { stack := v.key :: st, map := w.views.map.set v.key v } })
    (f := fun _ ctx => addSelections v ctx) ?_ fun _ _ h => h
  refine ⟨fun k x hx => ?_, a.clients⟩
  have hx : Assoc.get (w.views.map.set v.key v) k = some x := hx
  rw [Assoc.get_set] at hx
  split at hx
  · cases hx; exact hv
  · exact a.views k x hx

theorem views_latest (a : AllViews P w) {v : View} (h : w.views.latestValue = some v) : P v := by
  unfold StackMap.latestValue at h
  cases hh : w.views.stack.head? with
  | none => rw [hh] at h; cases h
  | some k => rw [hh] at h; exact a.views k v h

theorem views_forBuffer (cl : ViewClosed P) (b : Str) : P (View.forBuffer b) := cl.add [] b cl.empty

theorem views_deleteView (cl : ViewClosed P) (a : AllViews P w) {id : Str} {e : Option CoreError}
    (h : w.deleteView env id = .ok (w', e)) : AllViews P w' := by
  unfold deleteView at h
  split at h
  · cases h; exact a
  obtain ⟨v, hv, h⟩ := bind_inv h
  obtain ⟨w1, h1, h⟩ := bind_inv h
  have a0 : AllViews P { w with views := (w.views.remove id).1 } := by
    refine ⟨fun k x hx => ?_, a.clients⟩
    rcases remove_cases w.views id with ⟨_, e⟩ | ⟨_, e, _⟩
    · have hx : (w.views.remove id).1.map.get k = some x := hx
      rw [e] at hx; exact a.views k x hx
    · have hx : (w.views.remove id).1.map.get k = some x := hx
      rw [e, Assoc.get_del] at hx
      split at hx
      · cases hx
      · exact a.views k x hx
  have a1 := views_debug a0 h1
  obtain ⟨w2, h2, h⟩ := bind_inv h
  have a2 : AllViews P w2 := by
    refine foldlM_ind (P := AllViews P) h2 (views_mapClients a1 fun _ _ h => h) fun x _ u u' iu hu => ?_
    unfold dropBuffer at hu
    split at hu
    · cases hu; exact iu
    · exact views_debug (w := { u with buffers := u.buffers.del x }) (views_same iu rfl rfl) hu
  obtain ⟨w3, h3, h⟩ := bind_inv h
  have a3 : AllViews P w3 := by
    unfold ensureView at h3
    split at h3
    · refine views_addView ?_ (views_forBuffer cl _) h3
      split
      · exact views_same a2 rfl rfl
      · exact a2
    · cases h3; exact a2
  obtain ⟨latest, hl, h⟩ := bind_inv h
  obtain ⟨w4, h4, h⟩ := bind_inv h
  cases h
  refine views_notify ?_ h4
  refine views_mapClients a3 fun c ctx hc => ?_
  split
  · exact views_latest a3 (unwrap_inv hl)
  · exact hc

theorem views_modifyView (cl : ViewClosed P) (a : AllViews P w) {id : Str} {f : View → View} (hf : ∀ v, P v → P (f v))
    (h : w.modifyView env id f = .ok w') : AllViews P w' := by
  unfold modifyView at h
  obtain ⟨v, hv, h⟩ := bind_inv h
  have pv := a.views _ _ (Assoc.at_inv hv)
  dsimp only at h
  split at h
  · split at h
    · obtain ⟨w1, h1, h⟩ := bind_inv h
      obtain ⟨r, hd, h⟩ := bind_inv h
      have a2 := views_deleteView cl (views_addView (w := w.mapClients fun _ => moveSelections v.key (f v).key)
        (views_mapClients a fun _ ctx hc => by rw [moveSelections_view]; exact hc) (hf v pv) h1) hd
      split at h
      · cases h; exact a2
      · cases h
    · obtain ⟨w1, h1, h⟩ := bind_inv h
      cases h1
      obtain ⟨r, hd, h⟩ := bind_inv h
      have a2 := views_deleteView cl a hd
      split at h
      · cases h; exact a2
      · cases h
  · cases h; exact a

theorem views_view (cl : ViewClosed P) (a : AllViews P w) {c : Nat} {id : Str} {e : Option CoreError}
    (h : w.view env c id = .ok (w', e)) : AllViews P w' := by
  unfold view at h
  split at h
  · obtain ⟨v, hv, h⟩ := bind_inv h
    obtain ⟨ctx, hc, h⟩ := bind_inv h
    obtain ⟨w1, hn, h⟩ := bind_inv h
    cases h
    exact views_notify (views_setClient a (a.views _ _ (Assoc.at_inv hv))) hn
  · split at h
    · obtain ⟨ctx, hc, h⟩ := bind_inv h
      obtain ⟨w1, hn, h⟩ := bind_inv h
      cases h
      have a1 := views_setClient (st := w.clients.stack) (c := c)
        (ctx := { ctx with view := View.forBuffer id }) a (views_forBuffer cl id)
      refine views_notify ?_ hn
      refine ⟨fun k x hx => ?_, a1.clients⟩
      have hx : Assoc.get (w.views.map.orInsert (View.forBuffer id).key (View.forBuffer id)) k = some x := hx
      rw [Assoc.get_orInsert] at hx
      split at hx
      · cases hg : w.views.map.get (View.forBuffer id).key with
        | none => rw [hg] at hx; cases hx; exact views_forBuffer cl id
        | some y => rw [hg] at hx; cases hx; exact a.views _ _ hg
      · exact a.views k x hx
    · cases h; exact a

theorem views_openForEdit (a : AllViews P w) {name : Str} {s b : Bool} (h : w.openForEdit env name s = .ok (w', b)) :
    AllViews P w' := by
  unfold openForEdit at h
  split at h
  · cases h; exact views_same a rfl rfl
  · cases h; exact a
  · obtain ⟨r, hl, h⟩ := bind_inv h
    dsimp only at h
    split at h
    · obtain ⟨w1, hd, h⟩ := bind_inv h
      cases h
      exact views_debug (w := { w with buffers := w.buffers.set name r.1 }) (views_same a rfl rfl) hd
    · cases h; exact views_same a rfl rfl
  · obtain ⟨w1, ho, h⟩ := bind_inv h
    cases h
    obtain ⟨b, hb, rfl⟩ := openFile_ok ho
    exact views_same a rfl rfl

theorem views_edit (cl : ViewClosed P) (a : AllViews P w) {c : Nat} {name : Str} {s : Bool} (h : w.edit env c name s = .ok w') :
    AllViews P w' := by
  unfold edit at h
  obtain ⟨r, ho, h⟩ := bind_inv h
  obtain ⟨w2, ha, h⟩ := bind_inv h
  obtain ⟨r3, hv, h⟩ := bind_inv h
  have a3 := views_view cl (views_addView (views_openForEdit a ho) (views_forBuffer cl _) ha) hv
  dsimp only at h
  split at h
  · cases h
  · obtain ⟨w4, hd, h⟩ := bind_inv h
    have a4 := views_debug a3 hd
    split at h
    · exact views_notify a4 h
    · cases h; exact a4

theorem views_deleteSelection (a : AllViews P w) {c : Nat} {r : List Bytes} (h : w.deleteSelection env c = .ok (w', r)) :
    AllViews P w' := by
  unfold deleteSelection at h
  obtain ⟨ctx, hc, h⟩ := bind_inv h
  obtain ⟨sels, hs, h⟩ := bind_inv h
  obtain ⟨⟨w1, del, mod⟩, h1, h⟩ := bind_inv h
  have a1 : AllViews P w1 := foldlM_ind (P := fun st => AllViews P st.1) h1 a fun x _ u u' iu hu => by
    unfold deleteStep at hu
    obtain ⟨b, hb, hu⟩ := bind_inv hu
    obtain ⟨r, hr, hu⟩ := bind_inv hu
    cases hu
    exact views_same iu rfl rfl
  obtain ⟨w2, h2, h⟩ := bind_inv h
  have a2 : AllViews P w2 := foldlM_ind (P := AllViews P) h2 a1 fun x _ u u' iu hu => by
    unfold clampSelections at hu
    obtain ⟨b, hb, hu⟩ := bind_inv hu
    obtain ⟨m, hm, hu⟩ := bind_inv hu
    obtain ⟨ctx, hc, hu⟩ := bind_inv hu
    obtain ⟨ss, hs, hu⟩ := bind_inv hu
    obtain ⟨sels, hl, hu⟩ := bind_inv hu
    cases hu
    have hv : P ctx.view := iu.clients _ _ (unwrap_inv hc)
    refine views_setClient iu ?_
    exact hv
  split at h
  · obtain ⟨w3, h3, h⟩ := bind_inv h
    cases h
    exact views_notify a2 h3
  · cases h; exact a2

theorem views_start (cl : ViewClosed P) {cwd : Path} {args cwdText : Str} (h : World.start env cwd args cwdText = .ok w) :
    AllViews P w := by
  unfold start at h
  obtain ⟨w1, h1, h⟩ := bind_inv h
  obtain ⟨w2, h2, h⟩ := bind_inv h
  have a0 : AllViews P (World.new cwd) := by
    constructor
    · intro k v hv; cases hv
    · intro k v hv; cases hv
  have a2 := views_debug (views_debug a0 h1) h2
  exact views_addView (w := w2.openScratch BUFFER_SCRATCH []) (views_same a2 rfl rfl)
    (cl.add _ _ (cl.add _ _ cl.empty)) h

theorem views_op (cl : ViewClosed P) (a : AllViews P w) {op : CoreOp} (h : op.run env w = .ok w') : AllViews P w' := by
  cases op with
  | join id x =>
    have h : w.addClient env id x = .ok w' := h
    unfold addClient at h
    obtain ⟨context, hctx, h⟩ := bind_inv h
    obtain ⟨r, hins, h⟩ := bind_inv h
    obtain ⟨w1, hd, h⟩ := bind_inv h
    cases h
    obtain ⟨st, e, _⟩ := StackMap.insert_ok w.clients id context
    rw [e] at hins
    cases hins
    refine views_same (w := w1) (views_debug ?_ hd) rfl rfl
    refine views_setClient a ?_
    unfold joinContext at hctx
    cases hl : w.clients.latest with
    | some c => rw [hl] at hctx; exact a.clients c context (Assoc.at_inv hctx)
    | none =>
      rw [hl] at hctx
      obtain ⟨v, hv, hctx⟩ := bind_inv hctx
      cases hctx
      exact views_latest a (unwrap_inv hv)
  | leave id =>
    refine views_debug (w := { w with clients := (w.clients.remove id).1 }) ⟨a.views, fun c ctx hc => ?_⟩ h
    rcases remove_cases w.clients id with ⟨_, e⟩ | ⟨_, e, _⟩
    · have hc : (w.clients.remove id).1.map.get c = some ctx := hc
      rw [e] at hc; exact a.clients c ctx hc
    · have hc : (w.clients.remove id).1.map.get c = some ctx := hc
      rw [e, Assoc.get_del] at hc
      split at hc
      · cases hc
      · exact a.clients c ctx hc
  | edit c name x => exact views_edit cl a h
  | scratch c name content => exact views_edit (w := w.openScratch name content) cl (views_same a rfl rfl) h
  | view c id => obtain ⟨r, hr, rfl⟩ := map_inv h; exact views_view cl a hr
  | viewDelete c =>
    have h : w.deleteCurrentView env c = .ok w' := h
    unfold deleteCurrentView at h
    obtain ⟨ctx, hc, h⟩ := bind_inv h
    obtain ⟨r, hd, h⟩ := bind_inv h
    have := views_deleteView cl a hd
    dsimp only at h
    split at h
    · cases h; exact this
    · cases h
  | viewAdd c b =>
    obtain ⟨r, hr, rfl⟩ := map_inv h
    unfold addToCurrentView at hr
    split at hr
    · cases hr; exact a
    · obtain ⟨ctx, hc, hr⟩ := bind_inv hr
      obtain ⟨w1, hm, hr⟩ := bind_inv hr
      cases hr
      exact views_modifyView cl a (fun v hv => cl.add v b hv) hm
  | viewRemove c b =>
    obtain ⟨r, hr, rfl⟩ := map_inv h
    unfold removeFromCurrentView at hr
    split at hr
    · cases hr; exact a
    · obtain ⟨ctx, hc, hr⟩ := bind_inv hr
      obtain ⟨w1, hm, hr⟩ := bind_inv hr
      cases hr
      refine views_modifyView cl a (fun v hv => ?_) hm
      split
      · exact cl.remove v b hv
      · exact hv
  | move c d e =>
    have h : w.moveCursor env c d e = .ok w' := h
    unfold moveCursor at h
    obtain ⟨ctx, hc, h⟩ := bind_inv h
    obtain ⟨sels, hs, h⟩ := bind_inv h
    obtain ⟨sels', hm, h⟩ := bind_inv h
    have hv : P ctx.view := a.clients _ _ (Assoc.at_inv hc)
    have a1 := views_setClient (st := w.clients.stack) (c := c)
      (ctx := { ctx with selections := ctx.selections.set ctx.view.key sels' }) a hv
    dsimp only at h
    split at h
    · exact views_notify a1 h
    · cases h; exact a1
  | deleteSelection c => obtain ⟨r, hr, rfl⟩ := map_inv h; exact views_deleteSelection a hr
  | append b x xs => exact views_append a h
  | debug x => exact views_debug a h
  | message c x =>
    have h : w.message env c x = .ok w' := h
    unfold message at h
    obtain ⟨w1, h1, h⟩ := bind_inv h
    cases h
    have s1 := views_append a h1
    cases c <;> exact views_same s1 rfl rfl
  | error c t1 t2 =>
    have h : w.error env c t1 t2 = .ok w' := h
    unfold error at h
    obtain ⟨w1, h1, h⟩ := bind_inv h
    cases h
    have s1 := views_append a h1
    cases c <;> exact views_same s1 rfl rfl
  | notify c n => cases h; exact views_same a rfl rfl

theorem views_history (cl : ViewClosed P) {ok : World → CoreOp → Prop} (h : CoreHistory ok w) : AllViews P w := by
  induction h with
  | start h => exact views_start cl h
  | step _ _ hf h ih => exact views_op cl ih h

end World
end Ced

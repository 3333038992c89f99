import Verif.Proofs.CoreSel

/-! # No selections without a view, and the order of the views -/

namespace Ced
open Spec

namespace World
variable {env : Env} {w w' : World}

/-- selections are kept only for registered views (and excluded identifiers); the ordered views are registered -/
structure Tidy (X : Str → Prop) (w : World) : Prop where
  sel : ∀ c ctx k, w.clients.map.get c = some ctx → ctx.selections.has k = true → ¬ X k → w.views.map.has k = true
  stk : ∀ k ∈ w.views.stack, w.views.map.has k = true

theorem tidy_same {X : Str → Prop} (t : Tidy X w) (h1 : w'.clients = w.clients) (h2 : w'.views = w.views) : Tidy X w' :=
  ⟨by rw [h1, h2]; exact t.sel, by rw [h2]; exact t.stk⟩

theorem tidy_addView {X Y : Str → Prop} (i : Inv w) (t : Tidy X w) {v : View} (hX : ∀ k, k ≠ v.key → X k → Y k)
    (h : w.addView v = .ok w') : Tidy Y w' := by
  obtain ⟨st, e, hst⟩ := addView_ok w v
  rw [e] at h
  cases h
  have hst := hst i.nodup
  constructor
  · intro c ctx k hc hk hY
    have hc : Assoc.get (w.clients.map.mapVals fun _ ctx => addSelections v ctx) c = some ctx := hc
    show Assoc.has (w.views.map.set v.key v) k = true
    rw [Assoc.has_set]
    by_cases hkv : k = v.key
    · simp [hkv]
    · rw [Assoc.get_mapVals] at hc
      cases hx : w.clients.map.get c with
      | none => rw [hx] at hc; cases hc
      | some x =>
        rw [hx] at hc
        cases hc
        unfold Assoc.has at hk
        rw [addSelections_get, if_neg hkv] at hk
        simp [t.sel c x k hx hk fun hh => hY (hX k hkv hh)]
  · intro k hk
    have hk : k ∈ v.key :: st := hk
    show Assoc.has (w.views.map.set v.key v) k = true
    rw [Assoc.has_set]
    rw [hst, List.mem_cons, List.mem_filter] at hk
    rcases hk with e | ⟨hk, _⟩
    · simp [e]
    · simp [t.stk k hk]

theorem stripped_has {id : Str} {ctx : ClientContext} {extra : Bool} {k : Str}
    (h : (stripped id extra ctx).selections.has k = true) :
    (k ≠ id ∧ ctx.selections.has k = true) ∨ (extra = true ∧ k = lastResort.key) := by
  have hdel : ∀ k, Assoc.has (ctx.selections.del id) k = true → k ≠ id ∧ ctx.selections.has k = true := by
    intro k h; rw [Assoc.has_del] at h; simpa using h
  cases extra with
  | false => exact Or.inl (hdel k h)
  | true =>
    have h : Assoc.has (addSelections lastResort { ctx with selections := ctx.selections.del id }).selections k = true := h
    by_cases hk : k = lastResort.key
    · exact Or.inr ⟨rfl, hk⟩
    · unfold Assoc.has at h
      rw [addSelections_get, if_neg hk] at h
      exact Or.inl (hdel k h)

theorem tidy_closed {X Y : Str → Prop} (i : Inv w) (t : Tidy X w) {id : Str} {v : View} (hXY : ∀ k, k ≠ id → X k → Y k)
    (hd : Closed id v w w') : Tidy Y w' := by
  obtain ⟨latest, hl, hcl⟩ := hd.latest
  constructor
  · intro c ctx k hc hk hY
    rw [hcl, Assoc.get_mapVals] at hc
    cases hx : w.clients.map.get c with
    | none => rw [hx] at hc; cases hc
    | some x =>
      rw [hx] at hc
      cases hc
      have hk : (afterClose id (w.views.map.del id).isEmpty latest x).selections.has k = true := hk
      rw [afterClose_selections] at hk
      rw [hd.map]
      rcases stripped_has hk with ⟨h1, h2⟩ | ⟨h1, h2⟩
      · have := t.sel c x k hx h2 fun hh => hY (hXY k h1 hh)
        have hdel : Assoc.has (w.views.map.del id) k = true := by rw [Assoc.has_del]; simp [h1, this]
        split
        · rename_i he; rw [he] at hdel; cases hdel
        · exact hdel
      · rw [if_pos (List.isEmpty_iff.1 h1), h2]
        simp [Assoc.has, Assoc.get]
  · intro k hk
    by_cases he : w.views.map.del id = []
    · have hst := hd.order'' i.nodup he (fun k hk => by
        have := t.stk k hk
        by_cases hki : k = id
        · exact hki
        · have hdel : Assoc.has (w.views.map.del id) k = true := by rw [Assoc.has_del]; simp [hki, this]
          rw [he] at hdel; cases hdel)
      rw [hst, List.mem_singleton] at hk
      rw [hd.map, if_pos he, hk]
      simp [Assoc.has, Assoc.get]
    · rw [hd.order i.nodup he, List.mem_filter] at hk
      rw [hd.map, if_neg he, Assoc.has_del, t.stk k hk.1]
      simpa using hk.2

theorem tidy_deleteView (i : Inv w) {X Y : Str → Prop} (t : Tidy X w) {id : Str} (hXY : ∀ k, k ≠ id → X k → Y k)
    {e : Option CoreError} (h : w.deleteView env id = .ok (w', e)) (he : e = none) : Tidy Y w' := by
  rcases deleteView_ok i.mode i.cnodup h with ⟨_, h2, _⟩ | ⟨v, _, _, _, hd⟩
  · rw [he] at h2; cases h2
  · exact tidy_closed i t hXY hd

theorem tidy_setClient {X : Str → Prop} (t : Tidy X w) {c : Nat} {ctx ctx' : ClientContext} (hc : w.clients.map.get c = some ctx)
    (h : ∀ k, ctx'.selections.has k = true → ctx.selections.has k = true) :
    Tidy X { w with clients := { w.clients with map := w.clients.map.set c ctx' } } := by
  refine ⟨?_, t.stk⟩
  intro d x k hx hk hX
  have hx : Assoc.get (w.clients.map.set c ctx') d = some x := hx
  rw [Assoc.get_set] at hx
  split at hx
  · cases hx; exact t.sel c ctx k hc (h k hk) hX
  · exact t.sel d x k hx hk hX

theorem tidy_moveSelections {o n : Str} (hon : o ≠ n) (t : Tidy (fun _ => False) w) :
    Tidy (fun k => k = n) (w.mapClients fun _ => moveSelections o n) := by
  refine ⟨?_, t.stk⟩
  intro c ctx k hc hk hn
  have hc : Assoc.get (w.clients.map.mapVals fun _ => moveSelections o n) c = some ctx := hc
  rw [Assoc.get_mapVals] at hc
  cases hx : w.clients.map.get c with
  | none => rw [hx] at hc; cases hc
  | some x =>
    rw [hx] at hc
    cases hc
    unfold Assoc.has at hk
    rw [moveSelections_get _ _ _ _ hon, if_neg hn] at hk
    split at hk
    · cases hk
    · exact t.sel c x k hx hk (by simp)

theorem tidy_modifyView (i : Inv w) (t : Tidy (fun _ => False) w) {id : Str} {f : View → View}
    (hf : ∀ v, w.views.map.get id = some v → View.WF (f v) ∧ ∀ b ∈ (f v).buffers, w.buffers.has b = true)
    (h : w.modifyView env id f = .ok w') : Tidy (fun _ => False) w' := by
  unfold modifyView at h
  obtain ⟨v, hv, h⟩ := bind_inv h
  have hv := Assoc.at_inv hv
  obtain ⟨hwf, hb⟩ := hf v hv
  dsimp only at h
  split at h
  · rename_i hne
    split at h
    · rename_i hem
      obtain ⟨w1, h1, h⟩ := bind_inv h
      obtain ⟨r, hd, h⟩ := bind_inv h
      have i0 : Inv (w.mapClients fun _ => moveSelections v.key (f v).key) :=
        inv_mapClients i fun _ ctx => moveSelections_view _ _ ctx
      have i1 := inv_addView i0 hwf (by intro e; rw [e] at hem; cases hem) hb h1
      have s1 := tidy_addView (Y := fun _ => False) i0 (tidy_moveSelections hne t) (fun k hk e => hk e) h1
      split at h
      · rename_i he
        cases h
        exact tidy_deleteView i1 s1 (fun _ _ h => h) hd he
      · cases h
    · obtain ⟨w1, h1, h⟩ := bind_inv h
      cases h1
      obtain ⟨r, hd, h⟩ := bind_inv h
      split at h
      · rename_i he
        cases h
        exact tidy_deleteView i t (fun _ _ h => h) hd he
      · cases h
  · cases h; exact t

theorem tidy_notify {X : Str → Prop} (t : Tidy X w) {ids : List Nat} (h : w.notifyViewUpdate env ids = .ok w') : Tidy X w' := by
  obtain ⟨a, b⟩ := notify_same h
  exact tidy_same t a b

theorem tidy_debug {X : Str → Prop} (t : Tidy X w) {x : Str} (h : w.debug env x = .ok w') : Tidy X w' :=
  tidy_same t (debug_ok h).clients (debug_ok h).views

theorem tidy_append {X : Str → Prop} (t : Tidy X w) {n : Str} {x : Bytes} (h : w.appendTo env n x = .ok w') : Tidy X w' := by
  obtain ⟨o, rfl⟩ := appendTo_ok h
  exact tidy_same t rfl rfl

theorem tidy_view {X : Str → Prop} (t : Tidy X w) {c : Nat} {id : Str} {e : Option CoreError}
    (h : w.view env c id = .ok (w', e)) : Tidy X w' := by
  unfold view at h
  split at h
  · obtain ⟨v, hv, h⟩ := bind_inv h
    obtain ⟨ctx, hc, h⟩ := bind_inv h
    obtain ⟨w1, hn, h⟩ := bind_inv h
    cases h
    refine tidy_notify ?_ hn
    exact tidy_setClient t (unwrap_inv hc) fun _ h => h
  · split at h
    · obtain ⟨ctx, hc, h⟩ := bind_inv h
      obtain ⟨w1, hn, h⟩ := bind_inv h
      cases h
      refine tidy_notify ?_ hn
      have t1 := tidy_setClient t (ctx' := { ctx with view := View.forBuffer id }) (unwrap_inv hc) fun _ h => h
      have hold : ∀ k, w.views.map.has k = true →
          Assoc.has (w.views.map.orInsert (View.forBuffer id).key (View.forBuffer id)) k = true := by
        intro k hk
        unfold Assoc.has at *
        rw [Assoc.get_orInsert]
        split
        · rfl
        · exact hk
      exact ⟨fun c ctx k h1 h2 h3 => hold k (t1.sel c ctx k h1 h2 h3), fun k hk => hold k (t1.stk k hk)⟩
    · cases h; exact t

theorem openForEdit_same {name : Str} {s b : Bool} (h : w.openForEdit env name s = .ok (w', b)) :
    w'.clients = w.clients ∧ w'.views = w.views := by
  unfold openForEdit at h
  split at h
  · cases h; exact ⟨rfl, rfl⟩
  · cases h; exact ⟨rfl, rfl⟩
  · obtain ⟨r, hl, ho⟩ := bind_inv h
    dsimp only at ho
    split at ho
    · obtain ⟨w1, hd, ho⟩ := bind_inv ho
      cases ho
      exact ⟨(debug_ok hd).clients, (debug_ok hd).views⟩
    · cases ho; exact ⟨rfl, rfl⟩
  · obtain ⟨w1, ho', ho⟩ := bind_inv h
    cases ho
    obtain ⟨b, _, rfl⟩ := openFile_ok ho'
    exact ⟨rfl, rfl⟩

theorem tidy_edit (i : Inv w) {name : Str} (hn : '{' ∉ name) (t : Tidy (fun _ => False) w) {c : Nat} {sc : Bool}
    (h : w.edit env c name sc = .ok w') : Tidy (fun _ => False) w' := by
  unfold edit at h
  obtain ⟨r, ho, h⟩ := bind_inv h
  obtain ⟨a, b⟩ := openForEdit_same ho
  have i1 := (inv_openForEdit i hn ho).1
  obtain ⟨w2, ha, h⟩ := bind_inv h
  have s2 := tidy_addView (Y := fun _ => False) i1 (tidy_same t a b) (fun _ _ h => h) ha
  obtain ⟨r3, hv, h⟩ := bind_inv h
  have s3 := tidy_view s2 hv
  dsimp only at h
  split at h
  · cases h
  · obtain ⟨w4, hd, h⟩ := bind_inv h
    have s4 := tidy_debug s3 hd
    split at h
    · exact tidy_notify s4 h
    · cases h; exact s4

theorem has_set_self {ctx : ClientContext} {k0 : Str} {sels sels' : Assoc Str (List Selection)}
    (h0 : ctx.selections.get k0 = some sels) (k : Str) (h : Assoc.has (ctx.selections.set k0 sels') k = true) :
    ctx.selections.has k = true := by
  rw [Assoc.has_set] at h
  by_cases hk : k = k0
  · rw [hk]; exact Assoc.has_iff.2 ⟨_, h0⟩
  · simpa [hk] using h

theorem tidy_move {X : Str → Prop} (t : Tidy X w) {c : Nat} {dir : CursorTarget} {ext : Bool}
    (h : w.moveCursor env c dir ext = .ok w') : Tidy X w' := by
  unfold moveCursor at h
  obtain ⟨ctx, hc, h⟩ := bind_inv h
  obtain ⟨sels, hs, h⟩ := bind_inv h
  obtain ⟨sels', hm, h⟩ := bind_inv h
  have hs := Assoc.at_inv hs
  have s1 := tidy_setClient t (ctx' := { ctx with selections := ctx.selections.set ctx.view.key sels' }) (Assoc.at_inv hc)
    (has_set_self hs)
  dsimp only at h
  split at h
  · exact tidy_notify s1 h
  · cases h; exact s1

theorem tidy_clamp {X : Str → Prop} (t : Tidy X w) {c : Nat} {name : Str} (h : w.clampSelections c name = .ok w') : Tidy X w' := by
  unfold clampSelections at h
  obtain ⟨b, hb, h⟩ := bind_inv h
  obtain ⟨m, hm, h⟩ := bind_inv h
  obtain ⟨ctx, hc, h⟩ := bind_inv h
  obtain ⟨ss, hs, h⟩ := bind_inv h
  obtain ⟨sels, hl, h⟩ := bind_inv h
  cases h
  exact tidy_setClient t (unwrap_inv hc) (has_set_self (unwrap_inv hs))

theorem tidy_deleteSelection {X : Str → Prop} (t : Tidy X w) {c : Nat} {r : List Bytes}
    (h : w.deleteSelection env c = .ok (w', r)) : Tidy X w' := by
  unfold deleteSelection at h
  obtain ⟨ctx, hc, h⟩ := bind_inv h
  obtain ⟨sels, hs, h⟩ := bind_inv h
  obtain ⟨⟨w1, del, mod⟩, h1, h⟩ := bind_inv h
  have s1 : Tidy X w1 := foldlM_ind (P := fun st => Tidy X st.1) h1 t fun x _ a a' ia ha => by
    unfold deleteStep at ha
    obtain ⟨b, hb, ha⟩ := bind_inv ha
    obtain ⟨r, hr, ha⟩ := bind_inv ha
    cases ha
    exact tidy_same ia rfl rfl
  obtain ⟨w2, h2, h⟩ := bind_inv h
  have s2 : Tidy X w2 := foldlM_ind (P := Tidy X) h2 s1 fun x _ a a' ia ha => tidy_clamp ia ha
  split at h
  · obtain ⟨w3, h3, h⟩ := bind_inv h
    cases h
    exact tidy_notify s2 h3
  · cases h; exact s2

theorem tidy_removeClient {X : Str → Prop} (t : Tidy X w) {id : Nat} (h : w.removeClient env id = .ok w') : Tidy X w' := by
  unfold removeClient at h
  refine tidy_debug ?_ h
  refine ⟨?_, t.stk⟩
  intro c ctx k hc
  refine t.sel c ctx k ?_
  have hc : (w.clients.remove id).1.map.get c = some ctx := hc
  rcases remove_cases w.clients id with ⟨_, e⟩ | ⟨_, e1, e2⟩
  · rw [e] at hc; exact hc
  · rw [e1, Assoc.get_del] at hc
    split at hc
    · cases hc
    · exact hc

theorem latest_key (i : Inv w) {v : View} (h : w.views.latestValue = some v) : w.views.map.get v.key = some v := by
  unfold StackMap.latestValue at h
  cases hh : w.views.stack.head? with
  | none => rw [hh] at h; cases h
  | some k =>
    rw [hh] at h
    have h : w.views.map.get k = some v := h
    rw [(i.views k v h).1]; exact h

theorem tidy_addClient (i : Inv w) (t : Tidy (fun _ => False) w) {id : Nat} {session : Str}
    (h : w.addClient env id session = .ok w') : Tidy (fun _ => False) w' := by
  unfold addClient at h
  obtain ⟨context, hctx, h⟩ := bind_inv h
  obtain ⟨r, hins, h⟩ := bind_inv h
  obtain ⟨w1, hd, h⟩ := bind_inv h
  cases h
  refine tidy_same (w := w1) ?_ rfl rfl
  refine tidy_debug ?_ hd
  obtain ⟨st, e, hst⟩ := StackMap.insert_ok w.clients id context
  rw [e] at hins
  cases hins
  have key : ∀ k, context.selections.has k = true → w.views.map.has k = true := by
    unfold joinContext at hctx
    cases hl : w.clients.latest with
    | some c =>
      rw [hl] at hctx
      exact fun k hk => t.sel c context k (Assoc.at_inv hctx) hk (by simp)
    | none =>
      rw [hl] at hctx
      obtain ⟨v, hv, hctx⟩ := bind_inv hctx
      cases hctx
      have hv := latest_key i (unwrap_inv hv)
      intro k hk
      unfold Assoc.has at hk
      simp only [Assoc.get] at hk
      split at hk
      · rename_i e; rw [← e]; exact Assoc.has_iff.2 ⟨_, hv⟩
      · cases hk
  refine ⟨?_, t.stk⟩
  intro c ctx k hc hk hX
  have hc : Assoc.get (w.clients.map.set id context) c = some ctx := hc
  rw [Assoc.get_set] at hc
  split at hc
  · cases hc; exact key k hk
  · exact t.sel c ctx k hc hk hX

theorem tidy_start {cwd : Path} {args cwdText : Str} (h : World.start env cwd args cwdText = .ok w) :
    Tidy (fun _ => False) w := by
  have i := inv_start h
  unfold start at h
  obtain ⟨w1, h1, h⟩ := bind_inv h
  obtain ⟨w2, h2, h⟩ := bind_inv h
  have hcl : w2.clients = StackMap.new := (debug_ok h2).clients.trans (debug_ok h1).clients
  have hvw : w2.views = StackMap.new := (debug_ok h2).views.trans (debug_ok h1).views
  dsimp only at h
  obtain ⟨st, e, hst⟩ := addView_ok (w2.openScratch BUFFER_SCRATCH [])
    ((View.addLens [] BUFFER_DEBUG .whole).addLens BUFFER_SCRATCH .whole)
  rw [e] at h
  cases h
  have hst := hst (by show w2.views.stack.Nodup; rw [hvw]; exact List.nodup_nil)
  constructor
  · intro c ctx k hc
    have hc : Assoc.get (w2.clients.map.mapVals fun _ ctx => addSelections
      ((View.addLens [] BUFFER_DEBUG .whole).addLens BUFFER_SCRATCH .whole) ctx) c = some ctx := hc
    rw [hcl] at hc; cases hc
  · intro k hk
    have hk : k ∈ _ :: st := hk
    rw [hst] at hk
    have hk : k ∈ _ :: List.filter _ w2.views.stack := hk
    rw [hvw] at hk
    show Assoc.has (Assoc.set w2.views.map _ _) k = true
    rw [Assoc.has_set]
    simp [StackMap.new] at hk
    simp [hk]

theorem tidy_op (i : Inv w) (t : Tidy (fun _ => False) w) {op : CoreOp} (hn : CleanName w op) (h : op.run env w = .ok w') :
    Tidy (fun _ => False) w' := by
  cases op with
  | join id x => exact tidy_addClient i t h
  | leave id => exact tidy_removeClient t h
  | edit c name x => exact tidy_edit i (hn name rfl) t h
  | scratch c name content =>
    exact tidy_edit (w := w.openScratch name content) (inv_setBuffer i (hn name rfl) _ w.out) (hn name rfl)
      (tidy_same t rfl rfl) h
  | view c id => obtain ⟨r, hr, rfl⟩ := map_inv h; exact tidy_view t hr
  | viewDelete c =>
    have h : w.deleteCurrentView env c = .ok w' := h
    unfold deleteCurrentView at h
    obtain ⟨ctx, hc, h⟩ := bind_inv h
    obtain ⟨r, hd, h⟩ := bind_inv h
    dsimp only at h
    split at h
    · rename_i he
      cases h
      exact tidy_deleteView i t (fun _ _ h => h) hd he
    · cases h
  | viewAdd c b =>
    obtain ⟨r, hr, rfl⟩ := map_inv h
    unfold addToCurrentView at hr
    split at hr
    · cases hr; exact t
    · rename_i hb
      obtain ⟨ctx, hc, hr⟩ := bind_inv hr
      obtain ⟨w1, hm, hr⟩ := bind_inv hr
      cases hr
      exact tidy_modifyView i t (addLens_live i (by simpa [bufferExists] using hb)) hm
  | viewRemove c b =>
    obtain ⟨r, hr, rfl⟩ := map_inv h
    unfold removeFromCurrentView at hr
    split at hr
    · cases hr; exact t
    · obtain ⟨ctx, hc, hr⟩ := bind_inv hr
      obtain ⟨w1, hm, hr⟩ := bind_inv hr
      cases hr
      exact tidy_modifyView i t (removeLens_live i) hm
  | move c d e => exact tidy_move t h
  | deleteSelection c => obtain ⟨r, hr, rfl⟩ := map_inv h; exact tidy_deleteSelection t hr
  | append b x xs => exact tidy_append t h
  | debug x => exact tidy_debug t h
  | message c x =>
    have h : w.message env c x = .ok w' := h
    unfold message at h
    obtain ⟨w1, h1, h⟩ := bind_inv h
    cases h
    have s1 := tidy_append t h1
    cases c <;> exact tidy_same s1 rfl rfl
  | error c t1 t2 =>
    have h : w.error env c t1 t2 = .ok w' := h
    unfold error at h
    obtain ⟨w1, h1, h⟩ := bind_inv h
    cases h
    have s1 := tidy_append t h1
    cases c <;> exact tidy_same s1 rfl rfl
  | notify c n => cases h; exact tidy_same t rfl rfl

theorem tidy_history {ok : World → CoreOp → Prop} (hok : ∀ w op, ok w op → CleanName w op) (h : CoreHistory ok w) :
    Tidy (fun _ => False) w := by
  have key : Inv w ∧ Tidy (fun _ => False) w := by
    induction h with
    | start h => exact ⟨inv_start h, tidy_start h⟩
    | step _ ho _ h ih => exact ⟨inv_op ih.1 (hok _ _ ho) h, tidy_op ih.1 ih.2 (hok _ _ ho) h⟩
  exact key.2

end World
end Ced

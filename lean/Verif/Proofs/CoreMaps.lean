import Verif.Proofs.CoreText

/-! # Properties of the maps of selections that all operations preserve -/

namespace Ced
open Spec

namespace World
variable {env : Env} {w w' : World}

/-- the maps of selections of a client -/
def CtxMaps (P : Assoc Str (List Selection) → Prop) (ctx : ClientContext) : Prop :=
  ∀ k m, ctx.selections.get k = some m → P m

/-- the maps of selections of all the clients -/
def Maps (P : Assoc Str (List Selection) → Prop) (w : World) : Prop :=
  ∀ c ctx, w.clients.map.get c = some ctx → CtxMaps P ctx

/-- `P` is kept by what the operations do to a map of selections -/
structure Stable (P : Assoc Str (List Selection) → Prop) : Prop where
  nil : P []
  add : ∀ m b, P m → P (m.orInsert b [Selection.new])
  fresh : ∀ m b, P m → P (m.set b [Selection.new])
  move : ∀ (w : World) env dir ext m m', P m → m.mapM (w.moveBuffer env dir ext) = .ok m' → P m'
  clamp : ∀ (m : Assoc Str (List Selection)) b l n, m.get b = some l → P m → P (m.set b (l.map (Selection.clampTo · n)))

variable {P : Assoc Str (List Selection) → Prop}

theorem maps_same (t : Maps P w) (h : w'.clients = w.clients) : Maps P w' := by
  unfold Maps; rw [h]; exact t

theorem maps_debug (t : Maps P w) {x : Str} (h : w.debug env x = .ok w') : Maps P w' := maps_same t (debug_ok h).clients

theorem maps_notify (t : Maps P w) {ids : List Nat} (h : w.notifyViewUpdate env ids = .ok w') : Maps P w' := by
  obtain ⟨p, _, rfl⟩ := notify_ok h
  exact t

theorem maps_mapClients (t : Maps P w) {f : Nat → ClientContext → ClientContext} (hf : ∀ c x, CtxMaps P x → CtxMaps P (f c x)) :
    Maps P (w.mapClients f) := by
  intro c ctx hc
  have hc : Assoc.get (w.clients.map.mapVals f) c = some ctx := hc
  rw [Assoc.get_mapVals] at hc
  cases hx : w.clients.map.get c with
  | none => rw [hx] at hc; cases hc
  | some x => rw [hx] at hc; cases hc; exact hf c x (t c x hx)

theorem maps_set (t : Maps P w) {c : Nat} {x : ClientContext} (hx : CtxMaps P x) :
    Maps P { w with clients := { w.clients with map := w.clients.map.set c x } } := by
  intro d y hy
  have hy : Assoc.get (w.clients.map.set c x) d = some y := hy
  rw [Assoc.get_set] at hy
  split at hy
  · cases hy; exact hx
  · exact t d y hy

theorem stable_fold (hP : Stable P) (bs : List Str) {m : Assoc Str (List Selection)} (hm : P m) :
    P (bs.foldl (fun m b => m.orInsert b [Selection.new]) m) := by
  induction bs generalizing m with
  | nil => exact hm
  | cons b bs ih => exact ih (hP.add m b hm)

theorem stable_fresh (hP : Stable P) (bs : List Str) {m : Assoc Str (List Selection)} (hm : P m) :
    P (bs.foldl (fun m b => m.set b [Selection.new]) m) := by
  induction bs generalizing m with
  | nil => exact hm
  | cons b bs ih => exact ih (hP.fresh m b hm)

theorem ctx_set {x : ClientContext} (hx : CtxMaps P x) {k : Str} {m : Assoc Str (List Selection)} (hm : P m) :
    CtxMaps P { x with selections := x.selections.set k m } := by
  intro k' m' h
  have h : Assoc.get (x.selections.set k m) k' = some m' := h
  rw [Assoc.get_set] at h
  split at h
  · cases h; exact hm
  · exact hx k' m' h

theorem ctx_del {x : ClientContext} (hx : CtxMaps P x) (k : Str) : CtxMaps P { x with selections := x.selections.del k } := by
  intro k' m' h
  have h : Assoc.get (x.selections.del k) k' = some m' := h
  rw [Assoc.get_del] at h
  split at h
  · cases h
  · exact hx k' m' h

theorem ctx_add (hP : Stable P) (v : View) {x : ClientContext} (hx : CtxMaps P x) : CtxMaps P (addSelections v x) := by
  unfold addSelections
  refine ctx_set hx (stable_fold hP _ ?_)
  cases hg : x.selections.get v.key with
  | none => exact hP.nil
  | some m => exact hx _ _ hg

theorem ctx_moveSel (o n : Str) {x : ClientContext} (hx : CtxMaps P x) : CtxMaps P (moveSelections o n x) := by
  unfold moveSelections
  split
  · rename_i m hm
    exact ctx_set (x := { x with selections := x.selections.del o }) (ctx_del hx o) (hx _ _ hm)
  · exact hx

theorem maps_addView (hP : Stable P) (t : Maps P w) {v : View} (h : w.addView v = .ok w') : Maps P w' := by
  unfold addView at h
  obtain ⟨r, _, h⟩ := bind_inv h
  cases h
  exact maps_mapClients (w := { w with views := r.1 }) t fun _ x hx => ctx_add hP v hx

theorem dropBuffer_clients {b : Str} (h : dropBuffer env w b = .ok w') : w'.clients = w.clients := by
  unfold dropBuffer at h
  split at h
  · cases h; rfl
  · exact (debug_ok h).clients

theorem maps_deleteView (hP : Stable P) (t : Maps P w) {id : Str} {e : Option CoreError}
    (h : w.deleteView env id = .ok (w', e)) : Maps P w' := by
  unfold deleteView at h
  split at h
  · cases h; exact t
  obtain ⟨v, _, h⟩ := bind_inv h
  obtain ⟨w1, h1, h⟩ := bind_inv h
  obtain ⟨w2, h2, h⟩ := bind_inv h
  obtain ⟨w3, h3, h⟩ := bind_inv h
  obtain ⟨latest, _, h⟩ := bind_inv h
  obtain ⟨w4, h4, h⟩ := bind_inv h
  cases h
  have t1 : Maps P w1 := maps_debug (w := { w with views := (w.views.remove id).1 }) t h1
  have t2 : Maps P w2 := by
    refine foldlM_ind (P := Maps P) h2 (maps_mapClients t1 fun _ x hx => ctx_del hx id) ?_
    intro b _ a a' ha hd
    exact maps_same ha (dropBuffer_clients hd)
  have t3 : Maps P w3 := by
    unfold ensureView at h3
    split at h3
    · refine maps_addView hP ?_ h3
      split
      · exact t2
      · exact t2
    · cases h3; exact t2
  refine maps_notify (maps_mapClients t3 fun _ x hx => ?_) h4
  split
  · exact hx
  · exact hx

theorem maps_modifyView (hP : Stable P) (t : Maps P w) {id : Str} {f : View → View}
    (h : w.modifyView env id f = .ok w') : Maps P w' := by
  unfold modifyView at h
  obtain ⟨v, _, h⟩ := bind_inv h
  dsimp only at h
  split at h
  · split at h
    · obtain ⟨w1, h1, h⟩ := bind_inv h
      obtain ⟨r, h2, h⟩ := bind_inv h
      have t1 : Maps P w1 := maps_addView hP (maps_mapClients t fun _ x hx => ctx_moveSel _ _ hx) h1
      have t2 := maps_deleteView hP t1 h2
      split at h
      · cases h; exact t2
      · cases h
    · obtain ⟨w1, h1, h⟩ := bind_inv h
      cases h1
      obtain ⟨r, h2, h⟩ := bind_inv h
      have t2 := maps_deleteView hP t h2
      split at h
      · cases h; exact t2
      · cases h
  · cases h; exact t

theorem maps_view (t : Maps P w) {c : Nat} {id : Str} {e : Option CoreError} (h : w.view env c id = .ok (w', e)) : Maps P w' := by
  unfold view at h
  split at h
  · obtain ⟨v, hv, h⟩ := bind_inv h
    obtain ⟨ctx, hc, h⟩ := bind_inv h
    obtain ⟨w1, h1, h⟩ := bind_inv h
    cases h
    exact maps_notify (maps_set (x := { ctx with view := v }) t (t c ctx (unwrap_inv hc))) h1
  · split at h
    · obtain ⟨ctx, hc, h⟩ := bind_inv h
      obtain ⟨w1, h1, h⟩ := bind_inv h
      cases h
      refine maps_notify ?_ h1
      exact maps_same (maps_set (x := { ctx with view := View.forBuffer id }) t (t c ctx (unwrap_inv hc))) rfl
    · cases h; exact t

theorem maps_edit (hP : Stable P) (t : Maps P w) {c : Nat} {name : Str} {sc : Bool} (h : w.edit env c name sc = .ok w') :
    Maps P w' := by
  unfold edit at h
  obtain ⟨⟨w1, n⟩, h1, h⟩ := bind_inv h
  obtain ⟨w2, h2, h⟩ := bind_inv h
  obtain ⟨⟨w3, e⟩, h3, h⟩ := bind_inv h
  have t3 := maps_view (maps_addView hP (maps_same t (openForEdit_same h1).1) h2) h3
  cases e with
  | some _ => cases h
  | none =>
    dsimp only at h
    obtain ⟨w4, h4, h⟩ := bind_inv h
    have t4 := maps_debug t3 h4
    split at h
    · exact maps_notify t4 h
    · cases h; exact t4

theorem maps_move (hP : Stable P) (t : Maps P w) {c : Nat} {dir : CursorTarget} {ext : Bool}
    (h : w.moveCursor env c dir ext = .ok w') : Maps P w' := by
  unfold moveCursor at h
  obtain ⟨ctx, hc, h⟩ := bind_inv h
  obtain ⟨m, hm, h⟩ := bind_inv h
  obtain ⟨m', hm', h⟩ := bind_inv h
  have hx := t c ctx (Assoc.at_inv hc)
  have t1 := maps_set (c := c) t (ctx_set (k := ctx.view.key) hx (hP.move _ _ _ _ _ _ (hx _ _ (Assoc.at_inv hm)) hm'))
  dsimp only at h
  split at h
  · exact maps_notify t1 h
  · cases h; exact t1

theorem maps_clamp (hP : Stable P) (t : Maps P w) {c : Nat} {name : Str} (h : w.clampSelections c name = .ok w') : Maps P w' := by
  unfold clampSelections at h
  obtain ⟨b, hb, h⟩ := bind_inv h
  obtain ⟨n, hn, h⟩ := bind_inv h
  obtain ⟨ctx, hc, h⟩ := bind_inv h
  obtain ⟨m, hm, h⟩ := bind_inv h
  obtain ⟨l, hl, h⟩ := bind_inv h
  cases h
  have hx := t c ctx (unwrap_inv hc)
  exact maps_set t (ctx_set hx (hP.clamp m name l n (unwrap_inv hl) (hx _ _ (unwrap_inv hm))))

theorem maps_deleteSelection (hP : Stable P) (t : Maps P w) {c : Nat} {r : List Bytes}
    (h : w.deleteSelection env c = .ok (w', r)) : Maps P w' := by
  unfold deleteSelection at h
  obtain ⟨ctx, hc, h⟩ := bind_inv h
  obtain ⟨sels, hs, h⟩ := bind_inv h
  obtain ⟨⟨w1, del, mod⟩, h1, h⟩ := bind_inv h
  have t1 : Maps P w1 := foldlM_ind (P := fun st => Maps P st.1) h1 t fun x _ a a' ia ha => by
    unfold deleteStep at ha
    obtain ⟨b, hb, ha⟩ := bind_inv ha
    obtain ⟨r, hr, ha⟩ := bind_inv ha
    cases ha
    exact maps_same ia rfl
  obtain ⟨w2, h2, h⟩ := bind_inv h
  have t2 : Maps P w2 := foldlM_ind (P := Maps P) h2 t1 fun x _ a a' ia ha => maps_clamp hP ia ha
  split at h
  · obtain ⟨w3, h3, h⟩ := bind_inv h
    cases h
    exact maps_notify t2 h3
  · cases h; exact t2

theorem maps_removeClient (t : Maps P w) {id : Nat} (h : w.removeClient env id = .ok w') : Maps P w' := by
  unfold removeClient at h
  refine maps_debug ?_ h
  intro c ctx hc
  have hc : (w.clients.remove id).1.map.get c = some ctx := hc
  rcases remove_cases w.clients id with ⟨_, e⟩ | ⟨_, e, _⟩
  · rw [e] at hc; exact t c ctx hc
  · rw [e, Assoc.get_del] at hc
    split at hc
    · cases hc
    · exact t c ctx hc

theorem maps_addClient (hP : Stable P) (t : Maps P w) {id : Nat} {s : Str} (h : w.addClient env id s = .ok w') : Maps P w' := by
  unfold addClient at h
  obtain ⟨context, hctx, h⟩ := bind_inv h
  obtain ⟨r, hins, h⟩ := bind_inv h
  obtain ⟨w1, hd, h⟩ := bind_inv h
  cases h
  refine maps_same (w := w1) ?_ rfl
  refine maps_debug ?_ hd
  obtain ⟨st, e, _⟩ := StackMap.insert_ok w.clients id context
  rw [e] at hins
  cases hins
  have key : CtxMaps P context := by
    unfold joinContext at hctx
    cases hl : w.clients.latest with
    | some c =>
      rw [hl] at hctx
      exact t c context (Assoc.at_inv hctx)
    | none =>
      rw [hl] at hctx
      obtain ⟨v, hv, hctx⟩ := bind_inv hctx
      cases hctx
      intro k m hk
      simp only [Assoc.get] at hk
      split at hk
      · cases hk; exact stable_fresh hP _ hP.nil
      · cases hk
  intro c ctx hc
  have hc : Assoc.get (w.clients.map.set id context) c = some ctx := hc
  rw [Assoc.get_set] at hc
  split at hc
  · cases hc; exact key
  · exact t c ctx hc

theorem maps_append (t : Maps P w) {n : Str} {x : Bytes} (h : w.appendTo env n x = .ok w') : Maps P w' := by
  obtain ⟨o, rfl⟩ := appendTo_ok h
  exact t

theorem maps_op (hP : Stable P) (t : Maps P w) {op : CoreOp} (h : op.run env w = .ok w') : Maps P w' := by
  cases op with
  | join id s => exact maps_addClient hP t h
  | leave id => exact maps_removeClient t h
  | edit c n s => exact maps_edit hP t h
  | scratch c n x => exact maps_edit hP (w := w.openScratch n x) t h
  | view c id =>
    obtain ⟨⟨w1, e⟩, h1, rfl⟩ := map_inv h
    exact maps_view t h1
  | viewDelete c =>
    have h : w.deleteCurrentView env c = .ok w' := h
    unfold deleteCurrentView at h
    obtain ⟨ctx, _, h⟩ := bind_inv h
    obtain ⟨⟨w1, e⟩, h1, h⟩ := bind_inv h
    have t1 := maps_deleteView hP t h1
    cases e with
    | none => cases h; exact t1
    | some _ => cases h
  | viewAdd c b =>
    obtain ⟨⟨w1, e⟩, h1, rfl⟩ := map_inv h
    unfold addToCurrentView at h1
    split at h1
    · cases h1; exact t
    · obtain ⟨ctx, _, h1⟩ := bind_inv h1
      obtain ⟨w2, h2, h1⟩ := bind_inv h1
      cases h1
      exact maps_modifyView hP t h2
  | viewRemove c b =>
    obtain ⟨⟨w1, e⟩, h1, rfl⟩ := map_inv h
    unfold removeFromCurrentView at h1
    split at h1
    · cases h1; exact t
    · obtain ⟨ctx, _, h1⟩ := bind_inv h1
      obtain ⟨w2, h2, h1⟩ := bind_inv h1
      cases h1
      exact maps_modifyView hP t h2
  | move c d x => exact maps_move hP t h
  | deleteSelection c =>
    obtain ⟨⟨w1, r⟩, h1, rfl⟩ := map_inv h
    exact maps_deleteSelection hP t h1
  | append b x xs => exact maps_append t h
  | debug x => exact maps_debug t h
  | message c x =>
    have h : w.message env c x = .ok w' := h
    unfold message at h
    obtain ⟨w1, h1, h⟩ := bind_inv h
    cases h
    have t1 := maps_append t h1
    cases c <;> exact t1
  | error c a x =>
    have h : w.error env c a x = .ok w' := h
    unfold error at h
    obtain ⟨w1, h1, h⟩ := bind_inv h
    cases h
    have t1 := maps_append t h1
    cases c <;> exact t1
  | notify c n => cases h; exact t

theorem start_clients {cwd : Path} {args cwdText : Str} (h : World.start env cwd args cwdText = .ok w) :
    w.clients.map = [] ∧ w.clients.stack = [] := by
  unfold start at h
  obtain ⟨w1, h1, h⟩ := bind_inv h
  obtain ⟨w2, h2, h⟩ := bind_inv h
  have hcl : w2.clients = StackMap.new := (debug_ok h2).clients.trans (debug_ok h1).clients
  unfold addView at h
  obtain ⟨r, _, h⟩ := bind_inv h
  cases h
  constructor
  · show Assoc.mapVals w2.clients.map (fun _ ctx =>
      addSelections ((View.addLens [] BUFFER_DEBUG Focus.whole).addLens BUFFER_SCRATCH Focus.whole) ctx) = []
    rw [hcl]; rfl
  · show w2.clients.stack = []
    rw [hcl]; rfl

theorem maps_history (hP : Stable P) {ok : World → CoreOp → Prop} (h : CoreHistory ok w) : Maps P w := by
  induction h with
  | start h =>
    intro c ctx hc
    rw [(start_clients h).1] at hc
    cases hc
  | step _ _ _ h ih => exact maps_op hP ih h

/-- a buffer occurs once, with a single selection -/
def OneEach (m : Assoc Str (List Selection)) : Prop := (Assoc.keys m).Nodup ∧ ∀ b l, m.get b = some l → ∃ s, l = [s]

theorem mapM_keys {dir : CursorTarget} {ext : Bool} {m m' : Assoc Str (List Selection)}
    (h : m.mapM (w.moveBuffer env dir ext) = .ok m') : Assoc.keys m' = Assoc.keys m := by
  induction m generalizing m' with
  | nil => cases h; rfl
  | cons x m ih =>
    rw [List.mapM_cons] at h
    obtain ⟨y, hy, h⟩ := bind_inv h
    obtain ⟨ys, hys, h⟩ := bind_inv h
    cases h
    unfold moveBuffer at hy
    obtain ⟨_, _, hy⟩ := bind_inv hy
    obtain ⟨_, _, hy⟩ := bind_inv hy
    cases hy
    have := ih hys
    unfold Assoc.keys at *
    simp [this]

theorem oneEach_stable : Stable OneEach := by
  constructor
  · exact ⟨List.nodup_nil, by simp⟩
  · rintro m b ⟨h1, h2⟩
    refine ⟨Assoc.nodup_orInsert h1 _ _, ?_⟩
    intro b' l hl
    rw [Assoc.get_orInsert] at hl
    split at hl
    · cases hg : m.get b with
      | none => rw [hg] at hl; cases hl; exact ⟨_, rfl⟩
      | some l0 => rw [hg] at hl; cases hl; exact h2 _ _ hg
    · exact h2 _ _ hl
  · rintro m b ⟨h1, h2⟩
    refine ⟨Assoc.nodup_set h1 _ _, ?_⟩
    intro b' l hl
    rw [Assoc.get_set] at hl
    split at hl
    · cases hl; exact ⟨_, rfl⟩
    · exact h2 _ _ hl
  · rintro w env dir ext m m' ⟨h1, h2⟩ hm
    refine ⟨by rw [mapM_keys hm]; exact h1, ?_⟩
    intro b l' hl'
    have := mapM_moveBuffer hm b
    split at this
    · rw [this] at hl'; cases hl'
    · rename_i l hl
      obtain ⟨buf, l2, _, e2, e3⟩ := this
      rw [hl'] at e2
      cases e2
      obtain ⟨s, rfl⟩ := h2 b l hl
      exact List.length_eq_one_iff.1 (mapM_length e3)
  · rintro m b l n hl ⟨h1, h2⟩
    refine ⟨Assoc.nodup_set h1 _ _, ?_⟩
    intro b' l' hl'
    rw [Assoc.get_set] at hl'
    split at hl'
    · cases hl'
      obtain ⟨s, rfl⟩ := h2 b l hl
      exact ⟨_, rfl⟩
    · exact h2 _ _ hl'

end World
end Ced

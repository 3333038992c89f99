import Verif.Proofs.CoreTidy
import Verif.Proofs.CalmViews

/-! # Without `view-remove`, selections are kept only for the buffers of their view -/

namespace Ced
open Spec

namespace World
variable {env : Env} {w w' : World}

/-- the entries of a client under the identifier `k` are for buffers of `v` -/
def NeatCtx (ctx : ClientContext) (k : Str) (v : View) : Prop :=
  ∀ m n, ctx.selections.get k = some m → m.has n = true → n ∈ v.buffers

/-- all the entries (except under excluded identifiers) are for buffers of their view -/
def Neat (X : Str → Prop) (w : World) : Prop :=
  ∀ c ctx k v, w.clients.map.get c = some ctx → w.views.map.get k = some v → ¬ X k → NeatCtx ctx k v

theorem neat_same {X : Str → Prop} (t : Neat X w) (h1 : w'.clients = w.clients) (h2 : w'.views = w.views) : Neat X w' := by
  unfold Neat; rw [h1, h2]; exact t

theorem neat_logged {X : Str → Prop} (t : Neat X w) (l : Logged w w') : Neat X w' := neat_same t l.clients l.views

theorem neatCtx_add {v : View} {ctx : ClientContext} (h : NeatCtx ctx v.key v) : NeatCtx (addSelections v ctx) v.key v := by
  intro m n hm hn
  rw [addSelections_get, if_pos rfl] at hm
  cases hm
  unfold Assoc.has at hn
  rw [get_foldl_orInsert] at hn
  cases hg : ctx.selections.get v.key with
  | none =>
    rw [hg] at hn
    by_cases hb : n ∈ v.buffers
    · exact hb
    · simp [Assoc.get, hb] at hn
  | some m0 =>
    rw [hg] at hn
    cases hg0 : Assoc.get m0 n with
    | some l => exact h m0 n hg (Assoc.has_iff.2 ⟨l, hg0⟩)
    | none =>
      by_cases hb : n ∈ v.buffers
      · exact hb
      · simp [hg0, hb] at hn

theorem neat_addView {X Y : Str → Prop} (t : Neat X w) {v : View} (hX : ∀ k, k ≠ v.key → X k → Y k)
    (hold : ∀ c ctx, w.clients.map.get c = some ctx → NeatCtx ctx v.key v)
    (h : w.addView v = .ok w') : Neat Y w' := by
  obtain ⟨st, e, _⟩ := addView_ok w v
  rw [e] at h
  cases h
  intro c ctx k v' hc hv hY
  have hc : Assoc.get (w.clients.map.mapVals fun _ ctx => addSelections v ctx) c = some ctx := hc
  have hv : Assoc.get (w.views.map.set v.key v) k = some v' := hv
  rw [Assoc.get_mapVals] at hc
  cases hx : w.clients.map.get c with
  | none => rw [hx] at hc; cases hc
  | some x =>
    rw [hx] at hc
    cases hc
    rw [Assoc.get_set] at hv
    split at hv
    · rename_i e
      cases hv
      rw [e]
      exact neatCtx_add (hold c x hx)
    · rename_i hk
      intro m n hm hn
      rw [addSelections_get, if_neg hk] at hm
      exact t c x k v' hx hv (fun hh => hY (hX k hk hh)) m n hm hn

/-- the entries of a registered or unregistered view -/
theorem neat_old (i : Inv w) (td : Tidy (fun _ => False) w) (t : Neat (fun _ => False) w) {v : View}
    (hb : ∀ b ∈ v.buffers, w.buffers.has b = true) {c : Nat} {ctx : ClientContext} (hc : w.clients.map.get c = some ctx) :
    NeatCtx ctx v.key v := by
  intro m n hm hn
  obtain ⟨v', hv'⟩ := Assoc.has_iff.1 (td.sel c ctx v.key hc (Assoc.has_iff.2 ⟨m, hm⟩) (by simp))
  have := same_view i hb hv'
  subst this
  exact t c ctx _ v' hc hv' (by simp) m n hm hn

theorem neat_closed {X Y : Str → Prop} (td : Tidy X w) (t : Neat X w) {id : Str} {v : View}
    (hX : ∀ k, X k → k = id) (hd : Closed id v w w') : Neat Y w' := by
  obtain ⟨latest, hl, hcl⟩ := hd.latest
  intro c ctx k v' hc hv hY
  rw [hcl, Assoc.get_mapVals] at hc
  cases hx : w.clients.map.get c with
  | none => rw [hx] at hc; cases hc
  | some x =>
    rw [hx] at hc
    cases hc
    intro m n hm hn
    have hm : (afterClose id (w.views.map.del id).isEmpty latest x).selections.get k = some m := hm
    rw [afterClose_selections] at hm
    rw [hd.map] at hv
    by_cases he : w.views.map.del id = []
    · rw [if_pos he] at hv
      have hk : k = lastResort.key ∧ v' = lastResort := by
        simp only [Assoc.get] at hv
        split at hv
        · rename_i e; cases hv; exact ⟨e.symm, rfl⟩
        · cases hv
      obtain ⟨rfl, rfl⟩ := hk
      rw [he] at hm
      have hm : (addSelections lastResort { x with selections := x.selections.del id }).selections.get lastResort.key = some m := hm
      refine neatCtx_add (v := lastResort) (ctx := { x with selections := x.selections.del id }) ?_ m n hm hn
      intro m' n' hm' hn'
      have hm' : Assoc.get (x.selections.del id) lastResort.key = some m' := hm'
      rw [Assoc.get_del] at hm'
      split at hm'
      · cases hm'
      · rename_i hne
        have := td.sel c x _ hx (Assoc.has_iff.2 ⟨m', hm'⟩) (fun hh => hne (hX _ hh))
        have hdel : Assoc.has (w.views.map.del id) lastResort.key = true := by rw [Assoc.has_del]; simp [hne, this]
        rw [he] at hdel; cases hdel
    · rw [if_neg he] at hv
      have hem : (w.views.map.del id).isEmpty = false := by cases h : w.views.map.del id with
        | nil => exact absurd h he
        | cons a l => rfl
      rw [hem] at hm
      have hm : Assoc.get (x.selections.del id) k = some m := hm
      rw [Assoc.get_del] at hv hm
      split at hv
      · cases hv
      · rename_i hne
        rw [if_neg hne] at hm
        exact t c x k v' hx hv (fun hh => hne (hX k hh)) m n hm hn

theorem neat_deleteView (i : Inv w) {X Y : Str → Prop} (td : Tidy X w) (t : Neat X w) {id : Str} (hX : ∀ k, X k → k = id)
    {e : Option CoreError} (h : w.deleteView env id = .ok (w', e)) (he : e = none) : Neat Y w' := by
  rcases deleteView_ok i.mode i.cnodup h with ⟨_, h2, _⟩ | ⟨v, _, _, _, hd⟩
  · rw [he] at h2; cases h2
  · exact neat_closed td t hX hd

theorem neat_setClient {X : Str → Prop} (t : Neat X w) {c : Nat} {ctx ctx' : ClientContext} (hc : w.clients.map.get c = some ctx)
    (h : ∀ k m', ctx'.selections.get k = some m' → ∃ m, ctx.selections.get k = some m ∧ ∀ n, m'.has n = true → m.has n = true) :
    Neat X { w with clients := { w.clients with map := w.clients.map.set c ctx' } } := by
  intro d x k v hx hv hX
  have hx : Assoc.get (w.clients.map.set c ctx') d = some x := hx
  rw [Assoc.get_set] at hx
  split at hx
  · cases hx
    intro m' n hm' hn
    obtain ⟨m, hm, hs⟩ := h k m' hm'
    exact t c ctx k v hc hv hX m n hm (hs n hn)
  · exact t d x k v hx hv hX

theorem neat_view {X : Str → Prop} (t : Neat X w) (td : Tidy X w) {c : Nat} {id : Str} {e : Option CoreError}
    (hX : ∀ k, ¬ X k) (h : w.view env c id = .ok (w', e)) : Neat X w' := by
  unfold view at h
  split at h
  · obtain ⟨v, hv, h⟩ := bind_inv h
    obtain ⟨ctx, hc, h⟩ := bind_inv h
    obtain ⟨w1, hn, h⟩ := bind_inv h
    cases h
    obtain ⟨a, b⟩ := notify_same hn
    exact neat_same (neat_setClient t (ctx' := { ctx with view := v }) (unwrap_inv hc) fun k m hm => ⟨m, hm, fun _ h => h⟩) a b
  · split at h
    · obtain ⟨ctx, hc, h⟩ := bind_inv h
      obtain ⟨w1, hn, h⟩ := bind_inv h
      cases h
      obtain ⟨a, b⟩ := notify_same hn
      refine neat_same ?_ a b
      have t1 := neat_setClient t (ctx' := { ctx with view := View.forBuffer id }) (unwrap_inv hc)
        fun k m hm => ⟨m, hm, fun _ h => h⟩
      have td1 := tidy_setClient td (ctx' := { ctx with view := View.forBuffer id }) (unwrap_inv hc) fun _ h => h
      intro d x k v hd hv hXk
      have hv : Assoc.get (w.views.map.orInsert (View.forBuffer id).key (View.forBuffer id)) k = some v := hv
      rw [Assoc.get_orInsert] at hv
      split at hv
      · rename_i ek
        cases ho : w.views.map.get (View.forBuffer id).key with
        | some v0 =>
          rw [ho] at hv
          cases hv
          exact t1 d x k v0 hd (by rw [ek]; exact ho) hXk
        | none =>
          intro m n hm hn
          have := td1.sel d x k hd (Assoc.has_iff.2 ⟨m, hm⟩) (hX k)
          have this : Assoc.has w.views.map k = true := this
          rw [ek, Assoc.has_false.2 ho] at this
          cases this
      · exact t1 d x k v hd hv hXk
    · cases h; exact t

theorem neat_modifyView (i : Inv w) (td : Tidy (fun _ => False) w) (t : Neat (fun _ => False) w) {id : Str} {f : View → View}
    (hf : ∀ v, w.views.map.get id = some v → View.WF (f v) ∧ ∀ b ∈ (f v).buffers, w.buffers.has b = true)
    (hk : ∀ v, w.views.map.get id = some v → ∀ b ∈ v.buffers, b ∈ (f v).buffers)
    (h : w.modifyView env id f = .ok w') : Neat (fun _ => False) w' := by
  unfold modifyView at h
  obtain ⟨v, hv, h⟩ := bind_inv h
  have hv := Assoc.at_inv hv
  obtain ⟨hwf, hb⟩ := hf v hv
  have hvk := (i.views _ _ hv).1
  dsimp only at h
  split at h
  · rename_i hne
    split at h
    · rename_i hem
      obtain ⟨w1, h1, h⟩ := bind_inv h
      obtain ⟨r, hd, h⟩ := bind_inv h
      have i0 : Inv (w.mapClients fun _ => moveSelections v.key (f v).key) :=
        inv_mapClients i fun _ ctx => moveSelections_view _ _ ctx
      have i1 := inv_addView i0 hwf (by intro e; rw [e] at hem; cases hem) hb h1
      have td1 := tidy_addView (Y := fun _ => False) i0 (tidy_moveSelections hne td) (fun k hk e => hk e) h1
      have hget : ∀ c ctx, (w.mapClients fun _ => moveSelections v.key (f v).key).clients.map.get c = some ctx →
          ∃ x, w.clients.map.get c = some x ∧ ctx = moveSelections v.key (f v).key x := by
        intro c ctx hc
        have hc : Assoc.get (w.clients.map.mapVals fun _ => moveSelections v.key (f v).key) c = some ctx := hc
        rw [Assoc.get_mapVals] at hc
        cases hx : w.clients.map.get c with
        | none => rw [hx] at hc; cases hc
        | some x => rw [hx] at hc; cases hc; exact ⟨x, rfl, rfl⟩
      have t0 : Neat (fun k => k = (f v).key) (w.mapClients fun _ => moveSelections v.key (f v).key) := by
        intro c ctx k u hc hu hX m n hm hn
        obtain ⟨x, hx, rfl⟩ := hget c ctx hc
        rw [moveSelections_get _ _ _ _ hne, if_neg hX] at hm
        split at hm
        · cases hm
        · exact t c x k u hx hu (by simp) m n hm hn
      have t1 := neat_addView (Y := fun _ => False) t0 (fun k hk e => hk e) (by
        intro c ctx hc m n hm hn
        obtain ⟨x, hx, rfl⟩ := hget c ctx hc
        rw [moveSelections_get _ _ _ _ hne, if_pos rfl] at hm
        cases ho : x.selections.get v.key with
        | some m0 =>
          rw [ho] at hm
          cases hm
          refine hk v hv n ?_
          exact t c x v.key v hx (by rw [hvk]; exact hv) (by simp) _ n ho hn
        | none =>
          rw [ho] at hm
          exact neat_old i td t hb hx m n hm hn) h1
      split at h
      · rename_i he
        cases h
        exact neat_deleteView i1 td1 t1 (fun _ h => h.elim) hd he
      · cases h
    · obtain ⟨w1, h1, h⟩ := bind_inv h
      cases h1
      obtain ⟨r, hd, h⟩ := bind_inv h
      split at h
      · rename_i he
        cases h
        exact neat_deleteView i td t (fun _ h => h.elim) hd he
      · cases h
  · cases h; exact t

theorem neat_edit (i : Inv w) {name : Str} (hn : '{' ∉ name) (td : Tidy (fun _ => False) w) (t : Neat (fun _ => False) w) {c : Nat}
    {sc : Bool} (h : w.edit env c name sc = .ok w') : Neat (fun _ => False) w' := by
  unfold edit at h
  obtain ⟨r, ho, h⟩ := bind_inv h
  obtain ⟨a, b⟩ := openForEdit_same ho
  obtain ⟨i1, hb1⟩ := inv_openForEdit i hn ho
  obtain ⟨w2, ha, h⟩ := bind_inv h
  have td1 := tidy_same td a b
  have t1 := neat_same t a b
  have s2 := tidy_addView (Y := fun _ => False) i1 td1 (fun _ _ h => h) ha
  have n2 := neat_addView (Y := fun _ => False) t1 (fun _ _ h => h) (fun c ctx hc => neat_old i1 td1 t1 (by
    rw [forBuffer_buffers]; intro x hx; rw [List.mem_singleton] at hx; rw [hx]; exact hb1) hc) ha
  obtain ⟨r3, hv, h⟩ := bind_inv h
  have n3 := neat_view n2 s2 (by simp) hv
  dsimp only at h
  split at h
  · cases h
  · obtain ⟨w4, hd, h⟩ := bind_inv h
    have s4 := neat_logged n3 (debug_ok hd)
    split at h
    · obtain ⟨a, b⟩ := notify_same h
      exact neat_same s4 a b
    · cases h; exact s4

theorem neat_move {X : Str → Prop} (t : Neat X w) {c : Nat} {dir : CursorTarget} {ext : Bool}
    (h : w.moveCursor env c dir ext = .ok w') : Neat X w' := by
  unfold moveCursor at h
  obtain ⟨ctx, hc, h⟩ := bind_inv h
  obtain ⟨sels, hs, h⟩ := bind_inv h
  obtain ⟨sels', hm, h⟩ := bind_inv h
  have hs := Assoc.at_inv hs
  have s1 := neat_setClient t (ctx' := { ctx with selections := ctx.selections.set ctx.view.key sels' }) (Assoc.at_inv hc) (by
    intro k m' hm'
    have hm' : Assoc.get (ctx.selections.set ctx.view.key sels') k = some m' := hm'
    rw [Assoc.get_set] at hm'
    split at hm'
    · rename_i e
      cases hm'
      refine ⟨sels, by rw [e]; exact hs, fun n hn => ?_⟩
      have := mapM_moveBuffer hm n
      cases hg : Assoc.get sels n with
      | some l => exact Assoc.has_iff.2 ⟨l, hg⟩
      | none =>
        rw [hg] at this
        rw [Assoc.has_false.2 this] at hn; cases hn
    · exact ⟨m', hm', fun _ h => h⟩)
  dsimp only at h
  split at h
  · obtain ⟨a, b⟩ := notify_same h
    exact neat_same s1 a b
  · cases h; exact s1

theorem neat_clamp {X : Str → Prop} (t : Neat X w) {c : Nat} {name : Str} (h : w.clampSelections c name = .ok w') : Neat X w' := by
  unfold clampSelections at h
  obtain ⟨b, hb, h⟩ := bind_inv h
  obtain ⟨m, hm, h⟩ := bind_inv h
  obtain ⟨ctx, hc, h⟩ := bind_inv h
  obtain ⟨ss, hs, h⟩ := bind_inv h
  obtain ⟨sels, hl, h⟩ := bind_inv h
  cases h
  refine neat_setClient t (unwrap_inv hc) ?_
  intro k m' hm'
  have hs := unwrap_inv hs
  have hl := unwrap_inv hl
  have hm' : Assoc.get (ctx.selections.set ctx.view.key (ss.set name (sels.map (·.clampTo m)))) k = some m' := hm'
  rw [Assoc.get_set] at hm'
  split at hm'
  · rename_i e
    cases hm'
    refine ⟨ss, by rw [e]; exact hs, fun n hn => ?_⟩
    rw [Assoc.has_set] at hn
    by_cases hnn : n = name
    · rw [hnn]; exact Assoc.has_iff.2 ⟨_, hl⟩
    · simpa [hnn] using hn
  · exact ⟨m', hm', fun _ h => h⟩

theorem neat_deleteSelection {X : Str → Prop} (t : Neat X w) {c : Nat} {r : List Bytes}
    (h : w.deleteSelection env c = .ok (w', r)) : Neat X w' := by
  unfold deleteSelection at h
  obtain ⟨ctx, hc, h⟩ := bind_inv h
  obtain ⟨sels, hs, h⟩ := bind_inv h
  obtain ⟨⟨w1, del, mod⟩, h1, h⟩ := bind_inv h
  have s1 : Neat X w1 := foldlM_ind (P := fun st => Neat X st.1) h1 t fun x _ a a' ia ha => by
    unfold deleteStep at ha
    obtain ⟨b, hb, ha⟩ := bind_inv ha
    obtain ⟨r, hr, ha⟩ := bind_inv ha
    cases ha
    exact neat_same ia rfl rfl
  obtain ⟨w2, h2, h⟩ := bind_inv h
  have s2 : Neat X w2 := foldlM_ind (P := Neat X) h2 s1 fun x _ a a' ia ha => neat_clamp ia ha
  split at h
  · obtain ⟨w3, h3, h⟩ := bind_inv h
    cases h
    obtain ⟨a, b⟩ := notify_same h3
    exact neat_same s2 a b
  · cases h; exact s2

theorem neat_removeClient {X : Str → Prop} (t : Neat X w) {id : Nat} (h : w.removeClient env id = .ok w') : Neat X w' := by
  unfold removeClient at h
  refine neat_logged ?_ (debug_ok h)
  intro c ctx k v hc
  refine t c ctx k v ?_
  have hc : (w.clients.remove id).1.map.get c = some ctx := hc
  rcases remove_cases w.clients id with ⟨_, e⟩ | ⟨_, e1, e2⟩
  · rw [e] at hc; exact hc
  · rw [e1, Assoc.get_del] at hc
    split at hc
    · cases hc
    · exact hc

theorem neat_addClient (i : Inv w) (t : Neat (fun _ => False) w) {id : Nat} {session : Str}
    (h : w.addClient env id session = .ok w') : Neat (fun _ => False) w' := by
  unfold addClient at h
  obtain ⟨context, hctx, h⟩ := bind_inv h
  obtain ⟨r, hins, h⟩ := bind_inv h
  obtain ⟨w1, hd, h⟩ := bind_inv h
  cases h
  refine neat_same (w := w1) ?_ rfl rfl
  refine neat_logged ?_ (debug_ok hd)
  obtain ⟨st, e, hst⟩ := StackMap.insert_ok w.clients id context
  rw [e] at hins
  cases hins
  have key : ∀ k v, w.views.map.get k = some v → NeatCtx context k v := by
    unfold joinContext at hctx
    cases hl : w.clients.latest with
    | some c =>
      rw [hl] at hctx
      exact fun k v hv => t c context k v (Assoc.at_inv hctx) hv (by simp)
    | none =>
      rw [hl] at hctx
      obtain ⟨v0, hv0, hctx⟩ := bind_inv hctx
      cases hctx
      have hv0 := latest_key i (unwrap_inv hv0)
      intro k v hv m n hm hn
      have hm : Assoc.get [(v0.key, _)] k = some m := hm
      simp only [Assoc.get] at hm
      split at hm
      · rename_i e
        rw [← e, hv0] at hv
        cases hv
        cases hm
        unfold Assoc.has freshSelections at hn
        rw [get_foldl_set] at hn
        by_cases hb : n ∈ v0.buffers
        · exact hb
        · simp [hb, Assoc.get] at hn
      · cases hm
  intro c ctx k v hc hv hX
  have hc : Assoc.get (w.clients.map.set id context) c = some ctx := hc
  rw [Assoc.get_set] at hc
  split at hc
  · cases hc; exact key k v hv
  · exact t c ctx k v hc hv hX

theorem neat_start {cwd : Path} {args cwdText : Str} (h : World.start env cwd args cwdText = .ok w) :
    Neat (fun _ => False) w := by
  have hcl := start_clients h
  intro c ctx k v hc
  rw [hcl.1] at hc
  cases hc

theorem neat_op (i : Inv w) (td : Tidy (fun _ => False) w) (t : Neat (fun _ => False) w) {op : CoreOp} (hn : CleanName w op)
    (hr : ∀ c b, op ≠ .viewRemove c b) (h : op.run env w = .ok w') : Neat (fun _ => False) w' := by
  cases op with
  | join id x => exact neat_addClient i t h
  | leave id => exact neat_removeClient t h
  | edit c name x => exact neat_edit i (hn name rfl) td t h
  | scratch c name content =>
    exact neat_edit (w := w.openScratch name content) (inv_setBuffer i (hn name rfl) _ w.out) (hn name rfl)
      (tidy_same td rfl rfl) (neat_same t rfl rfl) h
  | view c id => obtain ⟨r, hr, rfl⟩ := map_inv h; exact neat_view t td (by simp) hr
  | viewDelete c =>
    have h : w.deleteCurrentView env c = .ok w' := h
    unfold deleteCurrentView at h
    obtain ⟨ctx, hc, h⟩ := bind_inv h
    obtain ⟨r, hd, h⟩ := bind_inv h
    dsimp only at h
    split at h
    · rename_i he
      cases h
      exact neat_deleteView i td t (fun _ h => h.elim) hd he
    · cases h
  | viewAdd c b =>
    obtain ⟨r, hr, rfl⟩ := map_inv h
    unfold addToCurrentView at hr
    split at hr
    · cases hr; exact t
    · rename_i hb
      obtain ⟨ctx, hc, hr⟩ := bind_inv hr
      obtain ⟨w1, hm, hr⟩ := bind_inv hr
      cases hr
      exact neat_modifyView i td t (addLens_live i (by simpa [bufferExists] using hb)) (fun _ _ _ h => addLens_keeps h) hm
  | viewRemove c b => exact absurd rfl (hr c b)
  | move c d e => exact neat_move t h
  | deleteSelection c => obtain ⟨r, hr, rfl⟩ := map_inv h; exact neat_deleteSelection t hr
  | append b x xs =>
    obtain ⟨o, rfl⟩ := appendTo_ok h
    exact neat_same t rfl rfl
  | debug x => exact neat_logged t (debug_ok h)
  | message c x =>
    have h : w.message env c x = .ok w' := h
    unfold message at h
    obtain ⟨w1, h1, h⟩ := bind_inv h
    cases h
    obtain ⟨o, rfl⟩ := appendTo_ok h1
    cases c <;> exact neat_same t rfl rfl
  | error c t1 t2 =>
    have h : w.error env c t1 t2 = .ok w' := h
    unfold error at h
    obtain ⟨w1, h1, h⟩ := bind_inv h
    cases h
    obtain ⟨o, rfl⟩ := appendTo_ok h1
    cases c <;> exact neat_same t rfl rfl
  | notify c n => cases h; exact neat_same t rfl rfl

theorem neat_history {ok : World → CoreOp → Prop} (hok : ∀ w op, ok w op → CleanName w op ∧ ∀ c b, op ≠ .viewRemove c b)
    (h : CoreHistory ok w) : Neat (fun _ => False) w := by
  have key : Inv w ∧ Tidy (fun _ => False) w ∧ Neat (fun _ => False) w := by
    induction h with
    | start h => exact ⟨inv_start h, tidy_start h, neat_start h⟩
    | step _ ho _ h ih =>
      exact ⟨inv_op ih.1 (hok _ _ ho).1 h, tidy_op ih.1 ih.2.1 (hok _ _ ho).1 h, neat_op ih.1 ih.2.1 ih.2.2 (hok _ _ ho).1 (hok _ _ ho).2 h⟩
  exact key.2.2

end World
end Ced

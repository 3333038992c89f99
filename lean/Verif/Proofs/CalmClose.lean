import Verif.Proofs.CalmLog

/-! Auxiliary lemmas: closing a view in a calm state completes. -/

namespace Ced
open Spec Props PieceTable

theorem fits_new {K : Kind} {b : Buffer} (h : Good K b) : Fits K b [Selection.new] := by
  intro sel hs
  rw [List.mem_singleton] at hs
  subst hs
  exact K.fresh h.text h.ends

theorem StackMap.remove_ok {K V : Type} [DecidableEq K] {m : StackMap K V} {k : K} {v : V} (hk : k ∈ m.stack) (hv : m.map.get k = some v) :
    (m.remove k).2 = some v := by
  unfold StackMap.remove
  cases hf : m.stack.findIdx? (· = k) with
  | none => exact absurd hk (findIdx_none.1 hf)
  | some i => exact hv

namespace World
variable {K : Kind} {env : Env} {w w' : World}

/-- the contexts of the clients are changed, their selections being kept or dropped -/
theorem drawn_mapClients (d : Drawn K w) {f : Nat → ClientContext → ClientContext}
    (h1 : ∀ c ctx, w.clients.map.get c = some ctx → Live w (f c ctx).view)
    (h2 : ∀ c ctx k m, (f c ctx).selections.get k = some m → ctx.selections.get k = some m) : Drawn K (w.mapClients f) := by
  refine ⟨d.good, d.name, ?_⟩
  intro v hv c ctx m n ss b hc hk hnv hm hb
  have hget : ∀ c ctx, (w.mapClients f).clients.map.get c = some ctx → ∃ x, w.clients.map.get c = some x ∧ ctx = f c x := by
    intro c ctx hc
    have hc : Assoc.get (w.clients.map.mapVals f) c = some ctx := hc
    rw [Assoc.get_mapVals] at hc
    cases hx : w.clients.map.get c with
    | none => rw [hx] at hc; cases hc
    | some x => rw [hx] at hc; cases hc; exact ⟨x, rfl, rfl⟩
  have hv : Live w v := by
    rcases hv with ⟨k, hk⟩ | ⟨c', ctx', hc', rfl⟩
    · exact Or.inl ⟨k, hk⟩
    · obtain ⟨x, hx, rfl⟩ := hget c' ctx' hc'
      exact h1 c' x hx
  obtain ⟨x, hx, rfl⟩ := hget c ctx hc
  exact d.fits v hv c x m n ss b hx (h2 _ _ _ _ hk) hnv hm hb

theorem drawn_addView (d : Drawn K w) {v : View}
    (hold : ∀ c ctx m n ss b, w.clients.map.get c = some ctx → ctx.selections.get v.key = some m → n ∈ v.buffers →
      m.get n = some ss → w.buffers.get n = some b → Fits K b ss)
    (h : w.addView v = .ok w') : Drawn K w' := by
  obtain ⟨st, e, _⟩ := addView_ok w v
  rw [e] at h
  cases h
  refine ⟨d.good, d.name, ?_⟩
  intro v' hv' c ctx m n ss b hc hk hnv hm hb
  have hget : ∀ c ctx, Assoc.get (w.clients.map.mapVals fun _ ctx => addSelections v ctx) c = some ctx →
      ∃ x, w.clients.map.get c = some x ∧ ctx = addSelections v x := by
    intro c ctx hc
    rw [Assoc.get_mapVals] at hc
    cases hx : w.clients.map.get c with
    | none => rw [hx] at hc; cases hc
    | some x => rw [hx] at hc; cases hc; exact ⟨x, rfl, rfl⟩
  have hv : v' = v ∨ Live w v' := by
    rcases hv' with ⟨k, hk⟩ | ⟨c', ctx', hc', rfl⟩
    · have hk : Assoc.get (w.views.map.set v.key v) k = some v' := hk
      rw [Assoc.get_set] at hk
      split at hk
      · cases hk; exact Or.inl rfl
      · exact Or.inr (Or.inl ⟨k, hk⟩)
    · obtain ⟨x, hx, rfl⟩ := hget c' ctx' hc'
      exact Or.inr (live_view (ctx := x) hx)
  obtain ⟨x, hx, rfl⟩ := hget c ctx hc
  have hb : w.buffers.get n = some b := hb
  have hold' : ∀ m0, x.selections.get v'.key = some m0 → m0.get n = some ss → Fits K b ss := by
    intro m0 h1 h2
    rcases hv with rfl | hv
    · exact hold c x m0 n ss b hx h1 hnv h2 hb
    · exact d.fits v' hv c x m0 n ss b hx h1 hnv h2 hb
  rw [addSelections_get] at hk
  split at hk
  · rename_i ek
    cases hk
    rw [get_foldl_orInsert] at hm
    rw [← ek] at hm
    cases hg : x.selections.get v'.key with
    | none =>
      rw [hg] at hm
      simp only [Option.getD_none, Assoc.get_nil] at hm
      split at hm
      · cases hm; exact fits_new (d.good n b hb)
      · cases hm
    | some m0 =>
      rw [hg] at hm
      simp only [Option.getD_some] at hm
      cases hg2 : m0.get n with
      | none =>
        rw [hg2] at hm
        simp only at hm
        split at hm
        · cases hm; exact fits_new (d.good n b hb)
        · cases hm
      | some l =>
        rw [hg2] at hm
        cases hm
        exact hold' m0 hg hg2
  · exact hold' m hk hm

/-- closing a view completes, if the log is not drawn together with a buffer that disappears, and there is something to
fall back to -/
theorem deleteView_total (hseg : K.seg env.seg) (i : Inv w) (d : Drawn K w) (a : AllViews AllWhole w)
    (t : Tidy (fun _ => False) w) (hord : ∀ k, w.views.map.has k = true → k ∈ w.views.stack) {id : Str} {v : View}
    (hv : w.views.map.get id = some v)
    (hlog : BUFFER_DEBUG ∈ v.buffers → ∀ b ∈ v.buffers, b = BUFFER_DEBUG ∨
      ∃ k v', k ≠ id ∧ w.views.map.get k = some v' ∧ b ∈ v'.buffers)
    (hlast : (∃ k v', k ≠ id ∧ w.views.map.get k = some v') ∨ (w.buffers.has BUFFER_SCRATCH = true ∧ BUFFER_SCRATCH ∉ v.buffers)) :
    ∃ w', w.deleteView env id = .ok (w', none) ∧ Drawn K w' := by
  have hhas : w.views.map.has id = true := Assoc.has_iff.2 ⟨v, hv⟩
  have hrem := StackMap.remove_ok (hord id hhas) hv
  obtain ⟨_, _, hmap, hstk⟩ := StackMap.remove_some hrem
  have hstk := hstk i.nodup
  obtain ⟨hkey, hwf, hne, hbs⟩ := i.views id v hv
  have hasc : K.name id := by
    rw [← hkey]
    exact key_name (a.views id v hv) fun n hn => d.name n (hbs n hn)
  have hget0 : ∀ k, Assoc.get (w.views.remove id).1.map k = if k = id then none else w.views.map.get k := by
    intro k; rw [hmap, Assoc.get_del]
  -- the view is removed and its removal logged
  have d0 : Drawn K { w with views := (w.views.remove id).1 } := by
    refine ⟨d.good, d.name, ?_⟩
    intro v' hv' c ctx m n ss b
    refine d.fits v' ?_ c ctx m n ss b
    rcases hv' with ⟨k, hk⟩ | hk
    · have hk : Assoc.get (w.views.remove id).1.map k = some v' := hk
      rw [hget0] at hk
      split at hk
      · cases hk
      · exact Or.inl ⟨k, hk⟩
    · exact Or.inr hk
  have a0 : AllViews AllWhole { w with views := (w.views.remove id).1 } := by
    refine ⟨?_, a.clients⟩
    intro k v' hk
    have hk : Assoc.get (w.views.remove id).1.map k = some v' := hk
    rw [hget0] at hk
    split at hk
    · cases hk
    · exact a.views k v' hk
  have hclive : ∀ c ctx, w.clients.map.get c = some ctx → ∀ n ∈ ctx.view.buffers, w.buffers.has n = true := by
    intro c ctx hc
    exact live_has i (live_view hc)
  obtain ⟨w1, e1, d1⟩ := debug_total (env := env) hseg d0 a0 i.mode i.cnodup (text := str!"delete view: " ++ id)
    (K.app (K.lit rfl) hasc) (by
      intro hnone v' hv' c ctx m hc hk hnv
      have hl : Live w v' := by
        rcases hv' with ⟨k, hk⟩ | hk
        · have hk : Assoc.get (w.views.remove id).1.map k = some v' := hk
          rw [hget0] at hk
          split at hk
          · cases hk
          · exact Or.inl ⟨k, hk⟩
        · exact Or.inr hk
      have := live_has i hl _ hnv
      rw [Assoc.has_false.2 hnone] at this; cases this) (by
      intro c ctx hc _ n hn
      exact Or.inr (hclive c ctx hc n hn))
  have l := debug_ok e1
  have a1 : AllViews AllWhole w1 := views_same a0 l.clients l.views
  have hv1 : w1.views = (w.views.remove id).1 := l.views
  have hc1 : w1.clients = w.clients := l.clients
  have hkeep1 : ∀ n, w.buffers.has n = true → w1.buffers.has n = true := l.keeps
  -- the selections of the view are dropped
  have hget2 : ∀ c ctx, Assoc.get (w1.clients.map.mapVals fun _ ctx => ({ ctx with selections := ctx.selections.del id } : ClientContext)) c = some ctx →
      ∃ x, w.clients.map.get c = some x ∧ ctx = { x with selections := x.selections.del id } := by
    intro c ctx hc
    rw [hc1, Assoc.get_mapVals] at hc
    cases hx : w.clients.map.get c with
    | none => rw [hx] at hc; cases hc
    | some x => rw [hx] at hc; cases hc; exact ⟨x, rfl, rfl⟩
  have p2 : Closing K v (w1.mapClients fun _ ctx => { ctx with selections := ctx.selections.del id }) := by
    refine ⟨?_, ?_, l.mode.trans i.mode, ?_, ?_, ?_, ?_, ?_⟩
    · refine drawn_mapClients d1 (fun c ctx hc => live_view (ctx := ctx) hc) ?_
      intro c ctx k m hm
      have hm : Assoc.get (ctx.selections.del id) k = some m := hm
      rw [Assoc.get_del] at hm
      split at hm
      · cases hm
      · exact hm
    · exact views_mapClients a1 fun _ _ h => h
    · have := Assoc.keys_mapVals w1.clients.map fun _ ctx => ({ ctx with selections := ctx.selections.del id } : ClientContext)
      rw [hc1] at this
      unfold mapClients
      dsimp only
      rw [hc1, this]; exact i.cnodup
    · intro k v' hk n hn
      have hk : w1.views.map.get k = some v' := hk
      rw [hv1, hget0] at hk
      split at hk
      · cases hk
      · exact hkeep1 n ((i.views k v' hk).2.2.2 n hn)
    · intro c ctx hc
      obtain ⟨x, hx, rfl⟩ := hget2 c ctx hc
      have hr := i.clients c x hx
      by_cases ek : x.view.key = id
      · left
        rw [ek, hv] at hr
        exact (Option.some.inj hr).symm
      · right
        refine ⟨x.view.key, ?_⟩
        show w1.views.map.get _ = _
        rw [hv1, hget0, if_neg ek]; exact hr
    · intro c ctx hc
      obtain ⟨x, hx, rfl⟩ := hget2 c ctx hc
      show Assoc.get (x.selections.del id) v.key = none
      rw [hkey]; exact Assoc.get_del_self _ _
    · intro hd b hb
      rcases hlog hd b hb with h | ⟨k, v', hk, hg, hm⟩
      · exact Or.inl h
      · right
        refine ⟨⟨(k, v'), Assoc.get_mem ?_, hm⟩, hkeep1 b ((i.views k v' hg).2.2.2 b hm)⟩
        show w1.views.map.get k = some v'
        rw [hv1, hget0, if_neg hk]; exact hg
  -- the buffers are dropped
  obtain ⟨w3, e3, p3⟩ := foldlM_total (P := Closing K v) (l := v.buffers) (f := dropBuffer env) p2 (by
    intro b hb w p
    exact drop_total hseg p (d.name b (hbs b hb)))
  have dr := dropBuffers_ok p2.mode e3
  have hv3 : w3.views = (w.views.remove id).1 := dr.views.trans hv1
  have hlog3 : w3.buffers.has BUFFER_DEBUG = true := dr.log (l.exist i.mode)
  have hne3 : w3.buffers.isEmpty = false := by
    cases hb : w3.buffers with
    | nil => rw [hb] at hlog3; cases hlog3
    | cons _ _ => rfl
  have hc3 : ∀ c ctx, w3.clients.map.get c = some ctx → ∃ x, w.clients.map.get c = some x ∧ ctx = { x with selections := x.selections.del id } := by
    intro c ctx hc
    rw [dr.clients] at hc
    exact hget2 c ctx hc
  -- a view is made if none is left
  have h4 : ∃ w4, w3.ensureView = .ok w4 ∧ Drawn K w4 ∧ AllViews AllWhole w4 ∧ (∃ latest k, w4.views.latestValue = some latest ∧ w4.views.map.get k = some latest) ∧
      (∀ k v', w4.views.map.get k = some v' → ∀ n ∈ v'.buffers, w4.buffers.has n = true) ∧
      (Assoc.keys w4.clients.map).Nodup := by
    unfold ensureView
    rw [hv3, hmap]
    cases hd : w.views.map.del id with
    | nil =>
      have hno : ∀ k v', k ≠ id → w.views.map.get k = some v' → False := by
        intro k v' hk hg
        have : Assoc.get (w.views.map.del id) k = some v' := by rw [Assoc.get_del, if_neg hk]; exact hg
        rw [hd] at this; cases this
      obtain ⟨hscr, hnscr⟩ : w.buffers.has BUFFER_SCRATCH = true ∧ BUFFER_SCRATCH ∉ v.buffers := by
        rcases hlast with ⟨k, v', hk, hg⟩ | h
        · exact (hno k v' hk hg).elim
        · exact h
      have hscr3 : w3.buffers.has BUFFER_SCRATCH = true := by
        obtain ⟨b, hb⟩ := Assoc.has_iff.1 hscr
        have hsd : BUFFER_SCRATCH ≠ BUFFER_DEBUG := by decide
        have h1 := dr.kept BUFFER_SCRATCH hsd (Or.inl hnscr)
        have h2 : w1.buffers.get BUFFER_SCRATCH = w.buffers.get BUFFER_SCRATCH := l.others _ hsd
        refine Assoc.has_iff.2 ⟨b, ?_⟩
        rw [h1]
        show w1.buffers.get _ = _
        rw [h2]; exact hb
      obtain ⟨st, e, _⟩ := addView_ok w3 (View.forBuffer BUFFER_SCRATCH)
      rw [if_pos (by rfl), hne3]
      refine ⟨_, e, ?_, views_addView p3.whole (views_forBuffer allWhole _) e, ?_, ?_, ?_⟩
      · refine drawn_addView p3.drawn ?_ e
        intro c ctx m n ss b hc hk
        obtain ⟨x, hx, rfl⟩ := hc3 c ctx hc
        have hk : Assoc.get (x.selections.del id) (View.forBuffer BUFFER_SCRATCH).key = some m := hk
        rw [Assoc.get_del] at hk
        split at hk
        · cases hk
        · rename_i hki
          obtain ⟨v', hv'⟩ := Assoc.has_iff.1 (t.sel c x _ hx (Assoc.has_iff.2 ⟨m, hk⟩) (by simp))
          exact (hno _ v' hki hv').elim
      · refine ⟨View.forBuffer BUFFER_SCRATCH, (View.forBuffer BUFFER_SCRATCH).key, ?_, Assoc.get_set_self _ _ _⟩
        show Assoc.get (Assoc.set _ _ _) _ = _
        exact Assoc.get_set_self _ _ _
      · intro k v' hk n hn
        have hk : Assoc.get (w3.views.map.set (View.forBuffer BUFFER_SCRATCH).key (View.forBuffer BUFFER_SCRATCH)) k = some v' := hk
        rw [Assoc.get_set] at hk
        split at hk
        · have := Option.some.inj hk
          subst this
          rw [forBuffer_buffers, List.mem_singleton] at hn
          subst hn
          exact hscr3
        · exact p3.views k v' hk n hn
      · have := Assoc.keys_mapVals w3.clients.map fun _ ctx => addSelections (View.forBuffer BUFFER_SCRATCH) ctx
        dsimp only
        rw [this]; exact p3.cnodup
    | cons x xs =>
      rw [if_neg (by simp)]
      refine ⟨w3, rfl, p3.drawn, p3.whole, ?_, p3.views, p3.cnodup⟩
      have hx : Assoc.has (w.views.map.del id) x.1 = true := by
        rw [← Assoc.mem_keys, hd]; simp [Assoc.keys]
      rw [Assoc.has_del] at hx
      simp at hx
      have hxs : x.1 ∈ w.views.stack.filter (· ≠ id) := by
        rw [List.mem_filter]
        exact ⟨hord _ hx.2, by simpa using hx.1⟩
      cases hst : w.views.stack.filter (· ≠ id) with
      | nil => rw [hst] at hxs; cases hxs
      | cons k0 ks =>
        have hk0 : k0 ∈ w.views.stack.filter (· ≠ id) := by rw [hst]; simp
        rw [List.mem_filter] at hk0
        obtain ⟨v0, hv0⟩ := Assoc.has_iff.1 (t.stk k0 hk0.1)
        have hg : w3.views.map.get k0 = some v0 := by
          rw [hv3, hget0, if_neg (by simpa using hk0.2)]; exact hv0
        refine ⟨v0, k0, ?_, hg⟩
        unfold StackMap.latestValue
        rw [hv3, hstk, hst, ← hv3]
        exact hg
  obtain ⟨w4, e4, d4, a4, ⟨latest, kl, hl, hkl⟩, hb4, hn4⟩ := h4
  -- the clients of the view fall back to the latest one
  have d5 : Drawn K (w4.mapClients fun _ ctx => if ctx.view.key = id then { ctx with view := latest } else ctx) := by
    refine drawn_mapClients d4 ?_ ?_
    · intro c ctx hc
      split
      · exact Or.inl ⟨kl, hkl⟩
      · exact live_view hc
    · intro c ctx k m hm
      split at hm <;> exact hm
  have a5 : AllViews AllWhole (w4.mapClients fun _ ctx => if ctx.view.key = id then { ctx with view := latest } else ctx) := by
    refine views_mapClients a4 ?_
    intro c ctx h
    split
    · exact a4.views kl latest hkl
    · exact h
  obtain ⟨o, e5⟩ := notify_total (env := env) hseg d5 a5 (ids := w4.clients.map.filterMap fun (c : Nat × ClientContext) => if c.2.view.key = id then some c.1 else none) (by
    intro c hc
    obtain ⟨⟨c', ctx⟩, hm, he⟩ := List.mem_filterMap.1 hc
    dsimp only at he
    split at he
    · rename_i hki
      cases he
      refine ⟨{ ctx with view := latest }, ?_, hb4 kl latest hkl⟩
      have := Assoc.get_mapVals w4.clients.map (fun _ ctx => if ctx.view.key = id then { ctx with view := latest } else ctx) c
      rw [Assoc.mem_get hn4 hm] at this
      simp only [Option.map_some, hki, if_true] at this
      exact this
    · cases he)
  refine ⟨_, ?_, drawn_same (w' := { (w4.mapClients fun _ ctx => if ctx.view.key = id then { ctx with view := latest } else ctx) with out := o })
    d5 rfl rfl rfl⟩
  unfold deleteView
  rw [if_neg (by unfold viewExists; rw [hhas]; simp)]
  dsimp only
  rw [hrem]
  simp only [unwrapR, except_bind_ok]
  rw [e1, except_bind_ok, e3, except_bind_ok, e4, except_bind_ok, hl]
  simp only [except_bind_ok]
  rw [e5]
  rfl

end World
end Ced

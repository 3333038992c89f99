import Verif.Proofs.CalmOps

/-! Auxiliary lemmas: safe requests complete (changing views, moving). -/

namespace Ced
open Spec Props PieceTable

namespace World
variable {K : Kind} {env : Env} {w w' : World}

theorem closable_close (i : Inv w) {id : Str} {v : View} (hv : w.views.map.get id = some v) (h : Closable w v) :
    (BUFFER_DEBUG ∈ v.buffers → ∀ b ∈ v.buffers, b = BUFFER_DEBUG ∨ ∃ k v', k ≠ id ∧ w.views.map.get k = some v' ∧ b ∈ v'.buffers) ∧
    ((∃ k v', k ≠ id ∧ w.views.map.get k = some v') ∨ (w.buffers.has BUFFER_SCRATCH = true ∧ BUFFER_SCRATCH ∉ v.buffers)) := by
  have hk : ∀ k v', w.views.map.get k = some v' → v' ≠ v → k ≠ id := by
    intro k v' h1 h2 e
    exact h2 ((key_eq_iff i h1 hv).2 e)
  refine ⟨?_, ?_⟩
  · intro hd b hb
    by_cases e : b = BUFFER_DEBUG
    · exact Or.inl e
    · obtain ⟨k, v', h1, h2, h3⟩ := h.1 hd b hb e
      exact Or.inr ⟨k, v', hk k v' h1 h2, h1, h3⟩
  · rcases h.2 with ⟨k, v', h1, h2⟩ | h
    · exact Or.inl ⟨k, v', hk k v' h1 h2, h1⟩
    · exact Or.inr h

theorem close_total (hseg : K.seg env.seg) (k : Calm K w) {id : Str} {v : View} (hv : w.views.map.get id = some v)
    (h : Closable w v) : ∃ w', w.deleteView env id = .ok (w', none) ∧ Drawn K w' := by
  obtain ⟨h1, h2⟩ := closable_close k.inv hv h
  exact deleteView_total hseg k.inv k.drawn k.whole k.tidy k.ranked hv h1 h2

theorem viewDelete_total (hseg : K.seg env.seg) (k : Calm K w) {c : Nat} {ctx : ClientContext}
    (hc : w.clients.map.get c = some ctx) (h : Closable w ctx.view) : ∃ w', w.deleteCurrentView env c = .ok w' ∧ Drawn K w' := by
  obtain ⟨w', e, d⟩ := close_total (env := env) hseg k (k.inv.clients c ctx hc) h
  refine ⟨w', ?_, d⟩
  unfold deleteCurrentView
  rw [Assoc.at_ok hc, except_bind_ok, e]
  rfl

theorem modify_total (hseg : K.seg env.seg) (k : Calm K w) {v : View} (hv : w.views.map.get v.key = some v) {f : View → View}
    (hwf : View.WF (f v)) (hex : ∀ b ∈ (f v).buffers, w.buffers.has b = true) (hwh : AllWhole (f v))
    (hsel : f v ≠ [] → ∀ n ∈ (f v).buffers, n ∈ v.buffers ∨
      ∀ d x m, w.clients.map.get d = some x → x.selections.get v.key = some m → m.get n = none)
    (hlog : f v ≠ [] → BUFFER_DEBUG ∈ v.buffers → ∀ b ∈ v.buffers, b = BUFFER_DEBUG ∨ b ∈ (f v).buffers ∨
      ∃ k v', k ≠ v.key ∧ w.views.map.get k = some v' ∧ b ∈ v'.buffers)
    (hcl : f v = [] → Closable w v) :
    ∃ w', w.modifyView env v.key f = .ok w' ∧ Drawn K w' := by
  have i := k.inv
  unfold modifyView
  rw [Assoc.at_ok hv, except_bind_ok]
  dsimp only
  by_cases hkk : v.key ≠ (f v).key
  · rw [if_pos hkk]
    cases hem : (f v).isEmpty with
    | true =>
      have he : f v = [] := by
        unfold View.isEmpty at hem
        exact List.length_eq_zero_iff.1 (by simpa using hem)
      obtain ⟨w', e, d⟩ := close_total (env := env) hseg k hv (hcl he)
      refine ⟨w', ?_, d⟩
      simp only [Bool.true_eq_false, if_false, except_pure, except_bind_ok, e]
    | false =>
      have hne : f v ≠ [] := by intro e; rw [e] at hem; cases hem
      have i0 : Inv (w.mapClients fun _ => moveSelections v.key (f v).key) :=
        inv_mapClients i fun _ ctx => moveSelections_view _ _ ctx
      have a0 : AllViews AllWhole (w.mapClients fun _ => moveSelections v.key (f v).key) :=
        views_mapClients k.whole fun _ ctx h => by rw [moveSelections_view]; exact h
      have hget : ∀ c ctx, Assoc.get (w.clients.map.mapVals fun _ => moveSelections v.key (f v).key) c = some ctx →
          ∃ x, w.clients.map.get c = some x ∧ ctx = moveSelections v.key (f v).key x := by
        intro c ctx hc
        rw [Assoc.get_mapVals] at hc
        cases hx : w.clients.map.get c with
        | none => rw [hx] at hc; cases hc
        | some x => rw [hx] at hc; cases hc; exact ⟨x, rfl, rfl⟩
      -- the selections under the identifier of the new view
      have hmoved : ∀ c ctx m n ss b, Assoc.get (w.clients.map.mapVals fun _ => moveSelections v.key (f v).key) c = some ctx →
          ctx.selections.get (f v).key = some m → n ∈ (f v).buffers → m.get n = some ss → w.buffers.get n = some b → Fits K b ss := by
        intro c ctx m n ss b hc hm hn hs hb
        obtain ⟨x, hx, rfl⟩ := hget c ctx hc
        rw [moveSelections_get _ _ _ _ hkk, if_pos rfl] at hm
        cases ho : x.selections.get v.key with
        | none =>
          rw [ho] at hm
          exact old_fits i k.drawn k.tidy hex hx hm hn hs hb
        | some m0 =>
          rw [ho] at hm
          have hm : m0 = m := Option.some.inj hm
          subst hm
          rcases hsel hne n hn with h | h
          · exact k.drawn.fits v (Or.inl ⟨_, hv⟩) c x m0 n ss b hx ho h hs hb
          · rw [h c x m0 hx ho] at hs; cases hs
      have d0 : Drawn K (w.mapClients fun _ => moveSelections v.key (f v).key) := by
        refine ⟨k.drawn.good, k.drawn.name, ?_⟩
        intro v' hv' c ctx m n ss b hc hm hn hs hb
        have hc : Assoc.get (w.clients.map.mapVals fun _ => moveSelections v.key (f v).key) c = some ctx := hc
        have hb : w.buffers.get n = some b := hb
        have hlv := live_registered i0 hv'
        have hlv : w.views.map.get v'.key = some v' := hlv
        by_cases e : v'.key = (f v).key
        · have e2 : v' = f v := by
            rw [e] at hlv
            exact same_view i hex hlv
          subst e2
          exact hmoved c ctx m n ss b hc hm hn hs hb
        · obtain ⟨x, hx, rfl⟩ := hget c ctx hc
          rw [moveSelections_get _ _ _ _ hkk, if_neg e] at hm
          split at hm
          · cases hm
          · exact k.drawn.fits v' (Or.inl ⟨_, hlv⟩) c x m n ss b hx hm hn hs hb
      obtain ⟨st, e1, _⟩ := addView_ok (w.mapClients fun _ => moveSelections v.key (f v).key) (f v)
      have hmap : ∀ w1, (w.mapClients fun _ => moveSelections v.key (f v).key).addView (f v) = .ok w1 →
          w1.views.map = w.views.map.set (f v).key (f v) := by
        intro w1 h; rw [e1] at h; cases h; rfl
      obtain ⟨w1, h1⟩ : ∃ w1, (w.mapClients fun _ => moveSelections v.key (f v).key).addView (f v) = .ok w1 := ⟨_, e1⟩
      have hmap := hmap w1 h1
      have i1 := inv_addView i0 hwf hne hex h1
      have t1 := tidy_addView (Y := fun _ => False) i0 (tidy_moveSelections hkk k.tidy) (fun k hk e => hk e) h1
      have a1 := views_addView a0 hwh h1
      have d1 := drawn_addView d0 (fun c ctx m n ss b hc hm hn hs hb => hmoved c ctx m n ss b hc hm hn hs hb) h1
      have r1 : Ranked w1 := ranked_addView i0 (ranked_same k.ranked rfl) h1
      have hv1 : w1.views.map.get v.key = some v := by
        rw [hmap, Assoc.get_set_ne _ hkk]; exact hv
      obtain ⟨w2, e2, d2⟩ := deleteView_total (env := env) hseg i1 d1 a1 t1 r1 hv1 (by
          intro hd b hb
          rcases hlog hne hd b hb with h | h | ⟨k', v', h1, h2, h3⟩
          · exact Or.inl h
          · exact Or.inr ⟨(f v).key, f v, Ne.symm hkk, by rw [hmap]; exact Assoc.get_set_self _ _ _, h⟩
          · right
            refine ⟨k', v', h1, ?_, h3⟩
            rw [hmap, Assoc.get_set]
            split
            · rename_i e
              rw [e] at h2
              rw [same_view i hex h2]
            · exact h2)
        (Or.inl ⟨(f v).key, f v, Ne.symm hkk, by rw [hmap]; exact Assoc.get_set_self _ _ _⟩)
      refine ⟨w2, ?_, d2⟩
      simp only [if_true, h1, except_bind_ok, e2, except_pure]
  · rw [if_neg hkk]
    exact ⟨w, rfl, k.drawn⟩

theorem addLens_buffers {v : View} {b n : Str} (h : n ∈ (v.addLens b .whole).buffers) : n = b ∨ n ∈ v.buffers := by
  obtain ⟨x, hx, rfl⟩ := List.mem_map.1 h
  rcases View.mem_addLens hx with h | h
  · exact Or.inl h
  · exact Or.inr (List.mem_map_of_mem h)

theorem addLens_keeps {v : View} {b n : Str} (h : n ∈ v.buffers) : n ∈ (v.addLens b .whole).buffers := by
  induction v with
  | nil => cases h
  | cons x v ih =>
    simp only [View.addLens]
    have h : n = x.1 ∨ n ∈ View.buffers v := by simpa [View.buffers] using h
    split
    · rename_i e
      rcases h with h | h
      · simp [View.buffers, h]
      · exact List.mem_cons_of_mem _ h
    · split
      · rcases h with h | h
        · simp [View.buffers, h]
        · exact List.mem_cons_of_mem _ (List.mem_cons_of_mem _ h)
      · rcases h with h | h
        · simp [View.buffers, h]
        · exact List.mem_cons_of_mem _ (ih h)

theorem addLens_ne (v : View) (b : Str) : v.addLens b .whole ≠ [] := by
  cases v with
  | nil => simp [View.addLens]
  | cons x v =>
    simp only [View.addLens]
    split
    · simp
    · split <;> simp

theorem viewAdd_total (hseg : K.seg env.seg) (k : Calm K w) {c : Nat} {ctx : ClientContext} (hc : w.clients.map.get c = some ctx)
    {b : Str} (hl : ∀ d x, w.clients.map.get d = some x → NoLeftover x ctx.view) :
    ∃ r, w.addToCurrentView env c b = .ok r ∧ Drawn K r.1 := by
  have i := k.inv
  unfold addToCurrentView bufferExists
  cases hb : w.buffers.has b with
  | false => exact ⟨_, rfl, k.drawn⟩
  | true =>
    have hv := i.clients c ctx hc
    obtain ⟨hwf, hex⟩ := addLens_live i hb ctx.view hv
    obtain ⟨w', e, d⟩ := modify_total (env := env) hseg k hv (f := fun v => v.addLens b .whole) hwf hex (allWhole_add _ b (k.whole.clients c ctx hc)) (by
        intro _ n hn
        by_cases hnv : n ∈ ctx.view.buffers
        · exact Or.inl hnv
        · right
          intro d x m hd hm
          cases hg : m.get n with
          | none => rfl
          | some l => exact absurd (hl d x hd m n hm (Assoc.has_iff.2 ⟨l, hg⟩)) hnv)
      (fun _ _ n hn => Or.inr (Or.inl (addLens_keeps hn))) (fun h => absurd h (addLens_ne _ _))
    refine ⟨(w', none), ?_, d⟩
    rw [if_neg (by simp), Assoc.at_ok hc, except_bind_ok, e]
    rfl

theorem removeGroup_buffers {v : View} {b n : Str} : n ∈ (v.removeLensGroup b).buffers ↔ n ≠ b ∧ n ∈ v.buffers := by
  unfold View.removeLensGroup View.buffers
  constructor
  · intro h
    obtain ⟨x, hx, rfl⟩ := List.mem_map.1 h
    rw [List.mem_filter] at hx
    exact ⟨by simpa using hx.2, List.mem_map_of_mem hx.1⟩
  · rintro ⟨h1, h2⟩
    obtain ⟨x, hx, rfl⟩ := List.mem_map.1 h2
    exact List.mem_map.2 ⟨x, List.mem_filter.2 ⟨hx, by simpa using h1⟩, rfl⟩

theorem remove_nil {v : View} {b : Str} (hwf : View.WF v) (hb : b ∈ v.buffers) : v.removeLensGroup b = [] ↔ v.buffers = [b] := by
  have hnd : v.buffers.Nodup := View.wf_nodup hwf
  constructor
  · intro h
    have hall : ∀ n ∈ v.buffers, n = b := by
      intro n hn
      apply Classical.byContradiction
      intro hne
      have : n ∈ (v.removeLensGroup b).buffers := removeGroup_buffers.2 ⟨hne, hn⟩
      rw [h] at this; cases this
    cases hv : v.buffers with
    | nil => rw [hv] at hb; cases hb
    | cons x l =>
      rw [hv] at hnd hall
      have hx := hall x (by simp)
      cases l with
      | nil => rw [hx]
      | cons y l =>
        have hy := hall y (by simp)
        rw [hx, hy] at hnd
        simp at hnd
  · intro h
    cases hr : v.removeLensGroup b with
    | nil => rfl
    | cons x l =>
      have : x.1 ∈ (v.removeLensGroup b).buffers := by rw [hr]; simp [View.buffers]
      rw [removeGroup_buffers, h] at this
      simp at this

theorem viewRemove_total (hseg : K.seg env.seg) (k : Calm K w) {c : Nat} {ctx : ClientContext} (hc : w.clients.map.get c = some ctx)
    {b : Str} (h1 : ctx.view.buffers = [b] → Closable w ctx.view)
    (h2 : b ∈ ctx.view.buffers → ctx.view.buffers ≠ [b] → BUFFER_DEBUG ∈ ctx.view.buffers → b ≠ BUFFER_DEBUG →
      ShownElsewhere w ctx.view b) :
    ∃ r, w.removeFromCurrentView env c b = .ok r ∧ Drawn K r.1 := by
  have i := k.inv
  unfold removeFromCurrentView bufferExists
  cases hb : w.buffers.has b with
  | false => exact ⟨_, rfl, k.drawn⟩
  | true =>
    have hv := i.clients c ctx hc
    obtain ⟨hwf, hex⟩ := removeLens_live (b := b) i ctx.view hv
    have hw0 := (i.views _ _ hv).2.1
    obtain ⟨w', e, d⟩ := modify_total (env := env) hseg k hv (f := fun v => if v.containsBuffer b then v.removeLensGroup b else v) hwf hex (by
        split
        · exact allWhole.remove _ b (k.whole.clients c ctx hc)
        · exact k.whole.clients c ctx hc) (by
        intro _ n hn
        left
        split at hn
        · exact (removeGroup_buffers.1 hn).2
        · exact hn) (by
        intro hne hd n hn
        split
        · rename_i hcb
          rw [if_pos hcb] at hne
          have hcb := (View.contains_iff b).1 hcb
          by_cases en : n = BUFFER_DEBUG
          · exact Or.inl en
          · by_cases e : n = b
            · subst e
              obtain ⟨k', v', g1, g2, g3⟩ := h2 hcb (fun e => hne ((remove_nil hw0 hcb).2 e)) hd en
              exact Or.inr (Or.inr ⟨k', v', fun e => g2 ((key_eq_iff i g1 hv).2 e), g1, g3⟩)
            · exact Or.inr (Or.inl (removeGroup_buffers.2 ⟨e, hn⟩))
        · exact Or.inr (Or.inl hn)) (by
        intro he
        split at he
        · rename_i hcb
          have hcb := (View.contains_iff b).1 hcb
          exact h1 ((remove_nil hw0 hcb).1 he)
        · exact absurd he (i.views _ _ hv).2.2.1)
    refine ⟨(w', none), ?_, d⟩
    rw [if_neg (by simp), Assoc.at_ok hc, except_bind_ok, e]
    rfl

/-- a motion that is not to the end of an empty line -/
theorem motion_total {t : PieceTable} (h : SteadyHistory t) {s : Bytes} (hs : Shows t s) (ha : Ascii s)
    (he : EndsWithNewline s) {seg : Segmentation} (hseg : IsSegmentation seg) {sel : Selection} (hin : Inside s sel)
    (d : CursorTarget) (ext : Bool) (hd : d = .lineEnd → OnEmptyLine s sel.cursor → s.length = 1) :
    ∃ sel', Selection.move seg t d ext sel = .ok sel' ∧ Inside s sel' := by
  by_cases h1 : s.length = 1
  · exact ⟨sel, C20_one_byte (steady_any h) hs h1 seg d ext sel, hin⟩
  obtain ⟨n0, c0, hat⟩ := at_exists hin.2.1
  have hok : ¬ ∃ e, Selection.move seg t d ext sel = .error e := by
    rw [C20_crash_iff h hs ha he hseg hin d ext hat]
    rintro ⟨e, _, pre, suf, hl⟩
    refine h1 (hd e ⟨n0, pre, suf, hl, ?_⟩)
    obtain ⟨pre', line', suf', hl', c1, c2, c3⟩ := hat
    obtain ⟨e1, e2, _⟩ := hl'.unique hl
    subst e1 e2
    simp at c2
    omega
  obtain ⟨n, w, hd', ⟨pre, line, suf, hl⟩, _⟩ := C20_heads hin.2.1 sel.targetCol d
  obtain ⟨o1, o2⟩ := C20_motion h hs ha hseg hin.2.1 h1 ext hd' hl
  by_cases hw : 1 ≤ w ∧ (suf ≠ [] ∨ w ≤ line.length)
  · refine ⟨_, o1 hw, ?_⟩
    have hlt : pre.length + (min w (line.length + 1) - 1) < s.length := by
      rw [hl.split]
      simp only [List.length_append]
      rcases hw.2 with h | h
      · have := List.length_pos_iff.2 h
        omega
      · omega
    refine ⟨?_, hlt, hw.1⟩
    unfold moved
    cases ext
    · exact hlt
    · exact hin.1
  · exact absurd (o2 hw) hok

theorem move_total (hseg : K.seg env.seg) (k : Calm K w) {c : Nat} {ctx : ClientContext} (hc : w.clients.map.get c = some ctx)
    {dir : CursorTarget} (ext : Bool) (hl : NoLeftover ctx ctx.view)
    (hmv : ∀ m n ss sel b, ctx.selections.get ctx.view.key = some m → m.get n = some ss → sel ∈ ss → w.buffers.get n = some b →
      K.sel b.content.content sel → ∃ sel', Selection.move env.seg b.content dir ext sel = .ok sel' ∧ K.sel b.content.content sel') :
    ∃ w', w.moveCursor env c dir ext = .ok w' ∧ Drawn K w' := by
  have i := k.inv
  obtain ⟨m, hm, _⟩ := k.sel.all c ctx _ _ hc (i.clients c ctx hc) (by simp)
  have hone := k.one c ctx hc _ m hm
  have hlive := live_view hc
  have key : ∀ kv ∈ m, ∃ y, w.moveBuffer env dir ext kv = .ok y ∧ ∀ b, w.buffers.get kv.1 = some b → Fits K b y.2 := by
    intro kv hkv
    have hg := Assoc.mem_get (k := kv.1) (v := kv.2) hone.1 hkv
    have hn := hl m kv.1 hm (Assoc.has_iff.2 ⟨_, hg⟩)
    obtain ⟨b, hb⟩ := Assoc.has_iff.1 (live_has i hlive _ hn)
    have hgood := k.drawn.good _ b hb
    have hfit := k.drawn.fits ctx.view hlive c ctx m kv.1 kv.2 b hc hm hn hg hb
    obtain ⟨ys, e, h1, _⟩ := mapM_exists (l := kv.2) (f := Selection.move env.seg b.content dir ext)
      (P := fun _ y => K.sel b.content.content y) (by
        intro sel hsel
        exact hmv m kv.1 kv.2 sel b hm hg hsel hb (hfit sel hsel))
    refine ⟨(kv.1, ys), ?_, ?_⟩
    · unfold moveBuffer
      rw [Assoc.at_ok hb, except_bind_ok, e]
      rfl
    · intro b' hb'
      rw [hb] at hb'
      cases hb'
      intro sel hsel
      obtain ⟨_, _, h⟩ := h1 sel hsel
      exact h
  obtain ⟨m', e⟩ := mapM_total (f := w.moveBuffer env dir ext) (l := m) fun kv hkv => (key kv hkv).imp fun _ h => h.1
  have d1 : Drawn K { w with clients := { w.clients with map := w.clients.map.set c { ctx with selections := ctx.selections.set ctx.view.key m' } } } := by
    refine drawn_setClient (x := { ctx with selections := ctx.selections.set ctx.view.key m' }) k.drawn hlive ?_
    intro v hv mm n ss b h1 h2 h3 h4
    have h1 : Assoc.get (ctx.selections.set ctx.view.key m') v.key = some mm := h1
    rw [Assoc.get_set] at h1
    split at h1
    · cases h1
      have hmm := mapM_moveBuffer e n
      cases hg : Assoc.get m n with
      | none => rw [hg] at hmm; rw [hmm] at h3; cases h3
      | some l =>
        rw [hg] at hmm
        obtain ⟨buf, l', hb, hl', hmove⟩ := hmm
        rw [h3] at hl'
        cases hl'
        obtain ⟨y, ey, hy⟩ := key (n, l) (Assoc.get_mem hg)
        unfold moveBuffer at ey
        rw [Assoc.at_ok hb, except_bind_ok, hmove] at ey
        cases ey
        exact hy b h4
    · exact k.drawn.fits v hv c ctx mm n ss b hc h1 h2 h3 h4
  unfold moveCursor
  rw [Assoc.at_ok hc, except_bind_ok]
  dsimp only
  rw [Assoc.at_ok hm, except_bind_ok, e, except_bind_ok]
  split
  · obtain ⟨o, e2⟩ := notify_total (env := env) hseg d1 (views_setClient (ctx := { ctx with selections := ctx.selections.set ctx.view.key m' }) k.whole (k.whole.clients c ctx hc)) (ids := [c]) (by
      intro c' hc'
      rw [List.mem_singleton] at hc'
      subst hc'
      exact ⟨_, Assoc.get_set_self _ _ _, live_has i hlive⟩)
    exact ⟨_, e2, drawn_same d1 rfl rfl rfl⟩
  · exact ⟨_, rfl, d1⟩

end World
end Ced

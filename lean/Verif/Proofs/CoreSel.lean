import Verif.Proofs.CoreReach

/-! # The selections of the clients -/

namespace Ced
open Spec

namespace World
variable {env : Env} {w w' : World}

/-- every list of selections of the client is a single selection -/
def SingleCtx (ctx : ClientContext) : Prop :=
  ∀ k sels b l, ctx.selections.get k = some sels → sels.get b = some l → ∃ s, l = [s]

/-- the client has selections under `k` for the buffers of `v` -/
def HasCtx (ctx : ClientContext) (k : Str) (v : View) : Prop :=
  ∃ sels, ctx.selections.get k = some sels ∧ ∀ b ∈ v.buffers, sels.has b = true

/-- selections of every client for every registered view whose identifier is not excluded -/
structure Sel (X : Str → Prop) (w : World) : Prop where
  single : ∀ c ctx, w.clients.map.get c = some ctx → SingleCtx ctx
  all : ∀ c ctx k v, w.clients.map.get c = some ctx → w.views.map.get k = some v → ¬ X k → HasCtx ctx k v

theorem sel_same {X : Str → Prop} (s : Sel X w) (h1 : w'.clients = w.clients) (h2 : w'.views = w.views) : Sel X w' :=
  ⟨by rw [h1]; exact s.single, by rw [h1, h2]; exact s.all⟩

theorem get_foldl_orInsert (bs : List Str) (d : List Selection) (m : Assoc Str (List Selection)) (b : Str) :
    Assoc.get (bs.foldl (fun m b => m.orInsert b d) m) b =
      match Assoc.get m b with
      | some l => some l
      | none => if b ∈ bs then some d else none := by
  induction bs generalizing m with
  | nil => cases h : Assoc.get m b <;> simp [h]
  | cons x bs ih =>
    rw [List.foldl_cons, ih, Assoc.get_orInsert]
    by_cases hx : b = x
    · subst hx
      cases h : Assoc.get m b <;> simp
    · rw [if_neg hx]
      cases h : Assoc.get m b <;> simp [hx]

theorem get_foldl_set (bs : List Str) (d : List Selection) (m : Assoc Str (List Selection)) (b : Str) :
    Assoc.get (bs.foldl (fun m b => m.set b d) m) b = if b ∈ bs then some d else Assoc.get m b := by
  induction bs generalizing m with
  | nil => simp
  | cons x bs ih =>
    rw [List.foldl_cons, ih, Assoc.get_set]
    by_cases hx : b = x <;> by_cases hb : b ∈ bs <;> simp [hx, hb]

theorem addSelections_get (v : View) (ctx : ClientContext) (k : Str) :
    (addSelections v ctx).selections.get k = if k = v.key then
      some (v.buffers.foldl (fun m b => m.orInsert b [Selection.new]) ((ctx.selections.get v.key).getD []))
      else ctx.selections.get k := by
  unfold addSelections
  rw [Assoc.get_set]

theorem single_add {v : View} {ctx : ClientContext} (h : SingleCtx ctx) : SingleCtx (addSelections v ctx) := by
  intro k sels b l hk hl
  rw [addSelections_get] at hk
  split at hk
  · cases hk
    rw [get_foldl_orInsert] at hl
    split at hl
    · rename_i l' hl'
      cases hl
      cases hs : ctx.selections.get v.key with
      | none => rw [hs] at hl'; cases hl'
      | some s0 => rw [hs] at hl'; exact h _ _ _ _ hs hl'
    · split at hl
      · cases hl; exact ⟨_, rfl⟩
      · cases hl
  · exact h _ _ _ _ hk hl

theorem has_add_self (v : View) (ctx : ClientContext) : HasCtx (addSelections v ctx) v.key v := by
  refine ⟨_, by rw [addSelections_get, if_pos rfl], ?_⟩
  intro b hb
  unfold Assoc.has
  rw [get_foldl_orInsert]
  split
  · rfl
  · rw [if_pos hb]; rfl

theorem has_add {v v' : View} {ctx : ClientContext} {k : Str} (h : HasCtx ctx k v') (hk : k ≠ v.key) :
    HasCtx (addSelections v ctx) k v' := by
  obtain ⟨s, hs, hb⟩ := h
  exact ⟨s, by rw [addSelections_get, if_neg hk]; exact hs, hb⟩

theorem sel_addView {X Y : Str → Prop} (s : Sel X w) {v : View} (hX : ∀ k, k ≠ v.key → X k → Y k) (h : w.addView v = .ok w') : Sel Y w' := by
  obtain ⟨st, e, hst⟩ := addView_ok w v
  rw [e] at h
  cases h
  constructor
  · intro c ctx hc
    have hc : Assoc.get (w.clients.map.mapVals fun _ ctx => addSelections v ctx) c = some ctx := hc
    rw [Assoc.get_mapVals] at hc
    cases hx : w.clients.map.get c with
    | none => rw [hx] at hc; cases hc
    | some x => rw [hx] at hc; cases hc; exact single_add (s.single c x hx)
  · intro c ctx k v' hc hv hk
    have hc : Assoc.get (w.clients.map.mapVals fun _ ctx => addSelections v ctx) c = some ctx := hc
    have hv : Assoc.get (w.views.map.set v.key v) k = some v' := hv
    rw [Assoc.get_mapVals] at hc
    rw [Assoc.get_set] at hv
    cases hx : w.clients.map.get c with
    | none => rw [hx] at hc; cases hc
    | some x =>
      rw [hx] at hc
      cases hc
      split at hv
      · rename_i e; cases hv; rw [e]; exact has_add_self _ _
      · rename_i e
        exact has_add (s.all c x k v' hx hv fun hh => hk (hX k e hh)) e

theorem sel_clients {X : Str → Prop} (s : Sel X w) {m : Assoc Nat ClientContext}
    (h : ∀ c ctx, m.get c = some ctx → ∃ ctx0, w.clients.map.get c = some ctx0 ∧ (SingleCtx ctx0 → SingleCtx ctx) ∧
      ∀ k v, HasCtx ctx0 k v → HasCtx ctx k v) :
    Sel X { w with clients := { w.clients with map := m } } := by
  constructor
  · intro c ctx hc
    obtain ⟨c0, h0, h1, _⟩ := h c ctx hc
    exact h1 (s.single c c0 h0)
  · intro c ctx k v hc hv hk
    obtain ⟨c0, h0, _, h2⟩ := h c ctx hc
    exact h2 k v (s.all c c0 k v h0 hv hk)

theorem sel_setClient {X : Str → Prop} (s : Sel X w) {c : Nat} {ctx ctx' : ClientContext} (hc : w.clients.map.get c = some ctx)
    (h1 : SingleCtx ctx → SingleCtx ctx') (h2 : ∀ k v, HasCtx ctx k v → HasCtx ctx' k v) :
    Sel X { w with clients := { w.clients with map := w.clients.map.set c ctx' } } := by
  refine sel_clients s ?_
  intro d x hx
  rw [Assoc.get_set] at hx
  split at hx
  · rename_i e; cases hx; rw [e]; exact ⟨ctx, hc, h1, h2⟩
  · exact ⟨x, hx, id, fun _ _ h => h⟩

theorem single_del {ctx : ClientContext} (h : SingleCtx ctx) (id : Str) :
    SingleCtx { ctx with selections := ctx.selections.del id } := by
  intro k sels b l hk hl
  have hk : Assoc.get (ctx.selections.del id) k = some sels := hk
  rw [Assoc.get_del] at hk
  split at hk
  · cases hk
  · exact h _ _ _ _ hk hl

theorem has_del {ctx : ClientContext} {k id : Str} {v : View} (h : HasCtx ctx k v) (hk : k ≠ id) :
    HasCtx { ctx with selections := ctx.selections.del id } k v := by
  obtain ⟨s, hs, hb⟩ := h
  refine ⟨s, ?_, hb⟩
  show Assoc.get (ctx.selections.del id) k = some s
  rw [Assoc.get_del, if_neg hk]; exact hs

theorem afterClose_selections (id : Str) (extra : Bool) (latest : View) (ctx : ClientContext) :
    (afterClose id extra latest ctx).selections = (stripped id extra ctx).selections := by
  unfold afterClose relocated; split <;> rfl

theorem hasCtx_congr {a b : ClientContext} (h : a.selections = b.selections) {k : Str} {v : View} :
    HasCtx a k v ↔ HasCtx b k v := by unfold HasCtx; rw [h]

theorem singleCtx_congr {a b : ClientContext} (h : a.selections = b.selections) : SingleCtx a ↔ SingleCtx b := by
  unfold SingleCtx; rw [h]

theorem sel_closed {X Y : Str → Prop} (s : Sel X w) {id : Str} {v : View} (hXY : ∀ k, k ≠ id → X k → Y k) (hd : Closed id v w w') : Sel Y w' := by
  obtain ⟨latest, hl, hcl⟩ := hd.latest
  constructor
  · intro c ctx hc
    rw [hcl, Assoc.get_mapVals] at hc
    cases hx : w.clients.map.get c with
    | none => rw [hx] at hc; cases hc
    | some x =>
      rw [hx] at hc
      cases hc
      rw [singleCtx_congr (afterClose_selections _ _ _ _)]
      unfold stripped
      have h0 := single_del (s.single c x hx) id
      cases (w.views.map.del id).isEmpty
      · exact h0
      · exact single_add h0
  · intro c ctx k v' hc hv hk
    rw [hcl, Assoc.get_mapVals] at hc
    cases hx : w.clients.map.get c with
    | none => rw [hx] at hc; cases hc
    | some x =>
      rw [hx] at hc
      cases hc
      rw [hasCtx_congr (afterClose_selections _ _ _ _)]
      rw [hd.map] at hv
      split at hv
      · rename_i he
        simp only [Assoc.get] at hv
        split at hv
        · rename_i e
          cases hv
          rw [← e, he]
          exact has_add_self _ _
        · cases hv
      · rename_i he
        rw [Assoc.get_del] at hv
        split at hv
        · cases hv
        · rename_i hne
          have h0 := has_del (s.all c x k v' hx hv fun hh => hk (hXY k hne hh)) hne
          have : (w.views.map.del id).isEmpty = false := by
            cases hh : w.views.map.del id with
            | nil => exact absurd hh he
            | cons _ _ => rfl
          unfold stripped
          rw [this]
          exact h0

theorem moveSelections_get (o n : Str) (ctx : ClientContext) (k : Str) (hon : o ≠ n) :
    (moveSelections o n ctx).selections.get k =
      if k = n then (ctx.selections.get o).orElse fun _ => ctx.selections.get n
      else if k = o then none else ctx.selections.get k := by
  unfold moveSelections
  cases h : ctx.selections.get o with
  | none =>
    simp only [Option.orElse]
    by_cases h1 : k = n
    · rw [h1]; simp
    · by_cases h2 : k = o
      · rw [if_neg h1, if_pos h2, h2, h]
      · rw [if_neg h1, if_neg h2]
  | some sels =>
    simp only [Option.orElse]
    rw [Assoc.get_set, Assoc.get_del]

theorem sel_moveSelections {o n : Str} (hon : o ≠ n) (s : Sel (fun _ => False) w) :
    Sel (fun k => k = o ∨ k = n) (w.mapClients fun _ => moveSelections o n) := by
  constructor
  · intro c ctx hc
    have hc : Assoc.get (w.clients.map.mapVals fun _ => moveSelections o n) c = some ctx := hc
    rw [Assoc.get_mapVals] at hc
    cases hx : w.clients.map.get c with
    | none => rw [hx] at hc; cases hc
    | some x =>
      rw [hx] at hc
      cases hc
      intro k sels b l hk hl
      rw [moveSelections_get _ _ _ _ hon] at hk
      split at hk
      · cases ho : x.selections.get o with
        | none => rw [ho] at hk; exact s.single c x hx _ _ _ _ hk hl
        | some so => rw [ho] at hk; cases hk; exact s.single c x hx _ _ _ _ ho hl
      · split at hk
        · cases hk
        · exact s.single c x hx _ _ _ _ hk hl
  · intro c ctx k v hc hv hk
    have hc : Assoc.get (w.clients.map.mapVals fun _ => moveSelections o n) c = some ctx := hc
    rw [Assoc.get_mapVals] at hc
    cases hx : w.clients.map.get c with
    | none => rw [hx] at hc; cases hc
    | some x =>
      rw [hx] at hc
      cases hc
      rw [not_or] at hk
      obtain ⟨se, h1, h2⟩ := s.all c x k v hx hv (by simp)
      exact ⟨se, by rw [moveSelections_get _ _ _ _ hon, if_neg hk.2, if_neg hk.1]; exact h1, h2⟩

theorem sel_deleteView (i : Inv w) {X Y : Str → Prop} (s : Sel X w) {id : Str} (hXY : ∀ k, k ≠ id → X k → Y k) {e : Option CoreError}
    (h : w.deleteView env id = .ok (w', e)) (he : e = none) : Sel Y w' := by
  rcases deleteView_ok i.mode i.cnodup h with ⟨_, h2, _⟩ | ⟨v, _, _, _, hd⟩
  · rw [he] at h2; cases h2
  · exact sel_closed s hXY hd

theorem sel_modifyView (i : Inv w) (s : Sel (fun _ => False) w) {id : Str} {f : View → View}
    (hf : ∀ v, w.views.map.get id = some v → View.WF (f v) ∧ ∀ b ∈ (f v).buffers, w.buffers.has b = true)
    (h : w.modifyView env id f = .ok w') : Sel (fun _ => False) w' := by
  unfold modifyView at h
  obtain ⟨v, hv, h⟩ := bind_inv h
  have hv := Assoc.at_inv hv
  obtain ⟨hwf, hb⟩ := hf v hv
  dsimp only at h
  split at h
  · rename_i hne
    split at h
    · rename_i hem
      obtain ⟨w1, h1, h⟩ := bind_inv h
      obtain ⟨r, hd, h⟩ := bind_inv h
      have i0 : Inv (w.mapClients fun _ => moveSelections v.key (f v).key) :=
        inv_mapClients i fun _ ctx => moveSelections_view _ _ ctx
      have i1 := inv_addView i0 hwf (by intro e; rw [e] at hem; cases hem) hb h1
      have s1 := sel_addView (Y := fun k => k = v.key) (sel_moveSelections hne s) (by
        intro k hk hor; rcases hor with e | e
        · exact e
        · exact absurd e hk) h1
      split at h
      · rename_i he
        cases h
        exact sel_deleteView i1 s1 (fun k hk e => hk e) hd he
      · cases h
    · obtain ⟨w1, h1, h⟩ := bind_inv h
      cases h1
      obtain ⟨r, hd, h⟩ := bind_inv h
      split at h
      · rename_i he
        cases h
        exact sel_deleteView i s (fun _ _ h => h) hd he
      · cases h
  · cases h; exact s

theorem notify_same {ids : List Nat} (h : w.notifyViewUpdate env ids = .ok w') :
    w'.clients = w.clients ∧ w'.views = w.views := by
  obtain ⟨p, _, rfl⟩ := notify_ok h
  exact ⟨rfl, rfl⟩

theorem sel_notify {X : Str → Prop} (s : Sel X w) {ids : List Nat} (h : w.notifyViewUpdate env ids = .ok w') : Sel X w' := by
  obtain ⟨a, b⟩ := notify_same h
  exact sel_same s a b

theorem sel_debug {X : Str → Prop} (s : Sel X w) {t : Str} (h : w.debug env t = .ok w') : Sel X w' :=
  sel_same s (debug_ok h).clients (debug_ok h).views

theorem sel_append {X : Str → Prop} (s : Sel X w) {n : Str} {t : Bytes} (h : w.appendTo env n t = .ok w') : Sel X w' := by
  obtain ⟨o, rfl⟩ := appendTo_ok h
  exact sel_same s rfl rfl

theorem sel_view {X : Str → Prop} (s : Sel X w) {c : Nat} {id : Str} {e : Option CoreError}
    (ho : w.views.map.has id = true ∨ w.buffers.has id = false)
    (h : w.view env c id = .ok (w', e)) : Sel X w' := by
  unfold view at h
  split at h
  · obtain ⟨v, hv, h⟩ := bind_inv h
    obtain ⟨ctx, hc, h⟩ := bind_inv h
    obtain ⟨w1, hn, h⟩ := bind_inv h
    cases h
    refine sel_notify ?_ hn
    exact sel_setClient s (unwrap_inv hc) (fun h => h) fun _ _ h => h
  · rename_i h1
    split at h
    · rename_i h2
      rcases ho with ho | ho
      · exact absurd ho h1
      · unfold bufferExists at h2; rw [ho] at h2; cases h2
    · cases h; exact s

theorem sel_edit (s : Sel (fun _ => False) w) {c : Nat} {name : Str} {sc : Bool}
    (h : w.edit env c name sc = .ok w') : Sel (fun _ => False) w' := by
  unfold edit at h
  obtain ⟨r, ho, h⟩ := bind_inv h
  have s1 : Sel (fun _ => False) r.1 := by
    unfold openForEdit at ho
    split at ho
    · cases ho; exact sel_same s rfl rfl
    · cases ho; exact s
    · obtain ⟨r, hl, ho⟩ := bind_inv ho
      dsimp only at ho
      split at ho
      · obtain ⟨w1, hd, ho⟩ := bind_inv ho
        cases ho
        exact sel_same s (debug_ok hd).clients (debug_ok hd).views
      · cases ho; exact sel_same s rfl rfl
    · obtain ⟨w1, ho', ho⟩ := bind_inv ho
      cases ho
      obtain ⟨b, _, rfl⟩ := openFile_ok ho'
      exact sel_same s rfl rfl
  obtain ⟨w2, ha, h⟩ := bind_inv h
  have s2 := sel_addView (Y := fun _ => False) s1 (fun _ _ h => h) ha
  obtain ⟨r3, hv, h⟩ := bind_inv h
  have hreg : w2.views.map.has (View.forBuffer name).key = true := by
    obtain ⟨st, e, _⟩ := addView_ok r.1 (View.forBuffer name)
    rw [e] at ha
    cases ha
    show Assoc.has (Assoc.set _ _ _) _ = true
    rw [Assoc.has_set]; simp
  have s3 := sel_view s2 (Or.inl hreg) hv
  dsimp only at h
  split at h
  · cases h
  · obtain ⟨w4, hd, h⟩ := bind_inv h
    have s4 := sel_debug s3 hd
    split at h
    · exact sel_notify s4 h
    · cases h; exact s4

theorem mapM_moveBuffer {dir : CursorTarget} {ext : Bool} {sels sels' : Assoc Str (List Selection)}
    (h : sels.mapM (w.moveBuffer env dir ext) = .ok sels') (b : Str) :
    match Assoc.get sels b with
    | none => Assoc.get sels' b = none
    | some l => ∃ buf l', w.buffers.get b = some buf ∧ Assoc.get sels' b = some l' ∧
        l.mapM (Selection.move env.seg buf.content dir ext) = .ok l' := by
  induction sels generalizing sels' with
  | nil => cases h; rfl
  | cons x sels ih =>
    rw [List.mapM_cons] at h
    obtain ⟨y, hy, h⟩ := bind_inv h
    obtain ⟨ys, hys, h⟩ := bind_inv h
    cases h
    unfold moveBuffer at hy
    obtain ⟨buf, hbuf, hy⟩ := bind_inv hy
    obtain ⟨ss, hss, hy⟩ := bind_inv hy
    cases hy
    obtain ⟨xn, xl⟩ := x
    simp only [Assoc.get]
    by_cases hx : xn = b
    · rw [if_pos hx, if_pos hx]
      subst hx
      exact ⟨buf, ss, Assoc.at_inv hbuf, rfl, hss⟩
    · rw [if_neg hx, if_neg hx]
      exact ih hys

theorem mapM_length {α β : Type} {f : α → R β} {l : List α} {l' : List β} (h : l.mapM f = .ok l') : l'.length = l.length := by
  induction l generalizing l' with
  | nil => cases h; rfl
  | cons x l ih =>
    rw [List.mapM_cons] at h
    obtain ⟨y, hy, h⟩ := bind_inv h
    obtain ⟨ys, hys, h⟩ := bind_inv h
    cases h
    simp [ih hys]

theorem single_replace {ctx : ClientContext} {k0 : Str} {sels sels' : Assoc Str (List Selection)}
    (h0 : ctx.selections.get k0 = some sels)
    (hh : ∀ b l', sels'.get b = some l' → ∃ l, sels.get b = some l ∧ l'.length = l.length) (h : SingleCtx ctx) :
    SingleCtx { ctx with selections := ctx.selections.set k0 sels' } := by
  intro k s b l hk hl
  have hk : Assoc.get (ctx.selections.set k0 sels') k = some s := hk
  rw [Assoc.get_set] at hk
  split at hk
  · cases hk
    obtain ⟨l0, h1, h2⟩ := hh b l hl
    obtain ⟨x, hx⟩ := h _ _ _ _ h0 h1
    rw [hx] at h2
    exact List.length_eq_one_iff.1 h2
  · exact h _ _ _ _ hk hl

theorem has_replace {ctx : ClientContext} {k0 : Str} {sels sels' : Assoc Str (List Selection)}
    (h0 : ctx.selections.get k0 = some sels) (hh : ∀ b, sels.has b = true → sels'.has b = true) {k : Str} {v : View}
    (h : HasCtx ctx k v) : HasCtx { ctx with selections := ctx.selections.set k0 sels' } k v := by
  obtain ⟨s, hs, hb⟩ := h
  by_cases hk : k = k0
  · subst hk
    rw [h0] at hs
    cases hs
    refine ⟨sels', ?_, fun b hm => hh b (hb b hm)⟩
    show Assoc.get (ctx.selections.set k sels') k = some sels'
    simp
  · refine ⟨s, ?_, hb⟩
    show Assoc.get (ctx.selections.set k0 sels') k = some s
    rw [Assoc.get_set, if_neg hk]; exact hs

theorem sel_move {X : Str → Prop} (s : Sel X w) {c : Nat} {dir : CursorTarget} {ext : Bool}
    (h : w.moveCursor env c dir ext = .ok w') : Sel X w' := by
  unfold moveCursor at h
  obtain ⟨ctx, hc, h⟩ := bind_inv h
  obtain ⟨sels, hs, h⟩ := bind_inv h
  obtain ⟨sels', hm, h⟩ := bind_inv h
  have hs := Assoc.at_inv hs
  have s1 := sel_setClient s (ctx' := { ctx with selections := ctx.selections.set ctx.view.key sels' }) (Assoc.at_inv hc)
    (single_replace hs (by
      intro b l' hl'
      have := mapM_moveBuffer hm b
      split at this
      · rw [this] at hl'; cases hl'
      · rename_i l hl
        obtain ⟨buf, l2, _, h2, h3⟩ := this
        rw [hl'] at h2; cases h2
        exact ⟨l, hl, mapM_length h3⟩))
    (fun k v => has_replace hs (by
      intro b hb
      have := mapM_moveBuffer hm b
      obtain ⟨l, hl⟩ := Assoc.has_iff.1 hb
      rw [hl] at this
      obtain ⟨buf, l2, _, h2, _⟩ := this
      exact Assoc.has_iff.2 ⟨_, h2⟩))
  dsimp only at h
  split at h
  · exact sel_notify s1 h
  · cases h; exact s1

theorem sel_clamp {X : Str → Prop} (s : Sel X w) {c : Nat} {name : Str} (h : w.clampSelections c name = .ok w') : Sel X w' := by
  unfold clampSelections at h
  obtain ⟨b, hb, h⟩ := bind_inv h
  obtain ⟨m, hm, h⟩ := bind_inv h
  obtain ⟨ctx, hc, h⟩ := bind_inv h
  obtain ⟨ss, hs, h⟩ := bind_inv h
  obtain ⟨sels, hl, h⟩ := bind_inv h
  cases h
  have hs := unwrap_inv hs
  have hl := unwrap_inv hl
  refine sel_setClient s (unwrap_inv hc) (single_replace hs ?_) (fun k v => has_replace hs ?_)
  · intro b' l' hl'
    rw [Assoc.get_set] at hl'
    split at hl'
    · rename_i e; cases hl'; rw [e]; exact ⟨sels, hl, by simp⟩
    · exact ⟨l', hl', rfl⟩
  · intro b' hb'
    rw [Assoc.has_set, hb']; simp

theorem sel_deleteSelection {X : Str → Prop} (s : Sel X w) {c : Nat} {r : List Bytes}
    (h : w.deleteSelection env c = .ok (w', r)) : Sel X w' := by
  unfold deleteSelection at h
  obtain ⟨ctx, hc, h⟩ := bind_inv h
  obtain ⟨sels, hs, h⟩ := bind_inv h
  obtain ⟨⟨w1, del, mod⟩, h1, h⟩ := bind_inv h
  have s1 : Sel X w1 := foldlM_ind (P := fun st => Sel X st.1) h1 s fun x _ a a' ia ha => by
    unfold deleteStep at ha
    obtain ⟨b, hb, ha⟩ := bind_inv ha
    obtain ⟨r, hr, ha⟩ := bind_inv ha
    cases ha
    exact sel_same ia rfl rfl
  obtain ⟨w2, h2, h⟩ := bind_inv h
  have s2 : Sel X w2 := foldlM_ind (P := Sel X) h2 s1 fun x _ a a' ia ha => sel_clamp ia ha
  split at h
  · obtain ⟨w3, h3, h⟩ := bind_inv h
    cases h
    exact sel_notify s2 h3
  · cases h; exact s2

theorem sel_removeClient {X : Str → Prop} (s : Sel X w) {id : Nat} (h : w.removeClient env id = .ok w') : Sel X w' := by
  unfold removeClient at h
  refine sel_debug ?_ h
  have hget : ∀ c ctx, (w.clients.remove id).1.map.get c = some ctx → w.clients.map.get c = some ctx := by
    intro c ctx hc
    rcases remove_cases w.clients id with ⟨_, e⟩ | ⟨_, e1, e2⟩
    · rw [e] at hc; exact hc
    · rw [e1, Assoc.get_del] at hc
      split at hc
      · cases hc
      · exact hc
  exact ⟨fun c ctx hc => s.single c ctx (hget c ctx hc), fun c ctx k v hc => s.all c ctx k v (hget c ctx hc)⟩

theorem sel_addClient (i : Inv w) (s : Sel (fun _ => False) w) {id : Nat} {session : Str}
    (ho : w.clients.stack = [] → w.views.map.length = 1) (h : w.addClient env id session = .ok w') :
    Sel (fun _ => False) w' := by
  unfold addClient at h
  obtain ⟨context, hctx, h⟩ := bind_inv h
  obtain ⟨r, hins, h⟩ := bind_inv h
  obtain ⟨w1, hd, h⟩ := bind_inv h
  cases h
  refine sel_same (w := w1) ?_ rfl rfl
  refine sel_debug ?_ hd
  obtain ⟨st, e, hst⟩ := StackMap.insert_ok w.clients id context
  rw [e] at hins
  cases hins
  have key : SingleCtx context ∧ ∀ k v, w.views.map.get k = some v → HasCtx context k v := by
    unfold joinContext at hctx
    cases hl : w.clients.latest with
    | some c =>
      rw [hl] at hctx
      have hc := Assoc.at_inv hctx
      exact ⟨s.single c context hc, fun k v hv => s.all c context k v hc hv (by simp)⟩
    | none =>
      rw [hl] at hctx
      obtain ⟨v, hv, hctx⟩ := bind_inv hctx
      cases hctx
      have hst0 : w.clients.stack = [] := by
        unfold StackMap.latest at hl; exact List.head?_eq_none_iff.1 hl
      have hv := unwrap_inv hv
      have hone : ∃ k0 v0, w.views.map = [(k0, v0)] := by
        obtain ⟨x, hx⟩ := List.length_eq_one_iff.1 (ho hst0)
        exact ⟨x.1, x.2, hx⟩
      obtain ⟨k0, v0, hm⟩ := hone
      have hvk : v = v0 := by
        unfold StackMap.latestValue at hv
        cases hh : w.views.stack.head? with
        | none => rw [hh] at hv; cases hv
        | some k =>
          rw [hh, hm] at hv
          have hv : Assoc.get [(k0, v0)] k = some v := hv
          simp only [Assoc.get] at hv
          split at hv
          · cases hv; rfl
          · cases hv
      constructor
      · intro k sels b l hk hl
        simp only [Assoc.get] at hk
        split at hk
        · cases hk
          unfold freshSelections at hl
          rw [get_foldl_set] at hl
          split at hl
          · cases hl; exact ⟨_, rfl⟩
          · cases hl
        · cases hk
      · intro k v' hv'
        have hk := (i.views k v' hv').1
        rw [hm] at hv'
        simp only [Assoc.get] at hv'
        split at hv'
        · cases hv'
          subst hvk
          refine ⟨freshSelections v, ?_, ?_⟩
          · simp only [Assoc.get]; rw [if_pos hk]
          · intro b hb
            unfold Assoc.has freshSelections
            rw [get_foldl_set, if_pos hb]; rfl
        · cases hv'
  constructor
  · intro c ctx hc
    have hc : Assoc.get (w.clients.map.set id context) c = some ctx := hc
    rw [Assoc.get_set] at hc
    split at hc
    · cases hc; exact key.1
    · exact s.single c ctx hc
  · intro c ctx k v hc hv hk
    have hc : Assoc.get (w.clients.map.set id context) c = some ctx := hc
    rw [Assoc.get_set] at hc
    split at hc
    · cases hc; exact key.2 k v hv
    · exact s.all c ctx k v hc hv hk

theorem sel_start {cwd : Path} {args cwdText : Str} (h : World.start env cwd args cwdText = .ok w) :
    Sel (fun _ => False) w := by
  unfold start at h
  obtain ⟨w1, h1, h⟩ := bind_inv h
  obtain ⟨w2, h2, h⟩ := bind_inv h
  have hcl : w2.clients = StackMap.new := (debug_ok h2).clients.trans (debug_ok h1).clients
  dsimp only at h
  refine sel_addView (X := fun _ => False) ?_ (fun _ _ h => h) h
  constructor
  · intro c ctx hc
    have hc : w2.clients.map.get c = some ctx := hc
    rw [hcl] at hc; cases hc
  · intro c ctx k v hc
    have hc : w2.clients.map.get c = some ctx := hc
    rw [hcl] at hc; cases hc

theorem sel_op (i : Inv w) (s : Sel (fun _ => False) w) {op : CoreOp} (ho : Ordinary w op) (h : op.run env w = .ok w') :
    Sel (fun _ => False) w' := by
  obtain ⟨hn, hov, hoj⟩ := ho
  cases op with
  | join id x => exact sel_addClient i s (hoj id x rfl) h
  | leave id => exact sel_removeClient s h
  | edit c name x => exact sel_edit s h
  | scratch c name content => exact sel_edit (w := w.openScratch name content) (sel_same s rfl rfl) h
  | view c id => obtain ⟨r, hr, rfl⟩ := map_inv h; exact sel_view s (hov c id rfl) hr
  | viewDelete c =>
    have h : w.deleteCurrentView env c = .ok w' := h
    unfold deleteCurrentView at h
    obtain ⟨ctx, hc, h⟩ := bind_inv h
    obtain ⟨r, hd, h⟩ := bind_inv h
    dsimp only at h
    split at h
    · rename_i he
      cases h
      exact sel_deleteView i s (fun _ _ h => h) hd he
    · cases h
  | viewAdd c b =>
    obtain ⟨r, hr, rfl⟩ := map_inv h
    unfold addToCurrentView at hr
    split at hr
    · cases hr; exact s
    · rename_i hb
      obtain ⟨ctx, hc, hr⟩ := bind_inv hr
      obtain ⟨w1, hm, hr⟩ := bind_inv hr
      cases hr
      exact sel_modifyView i s (addLens_live i (by simpa [bufferExists] using hb)) hm
  | viewRemove c b =>
    obtain ⟨r, hr, rfl⟩ := map_inv h
    unfold removeFromCurrentView at hr
    split at hr
    · cases hr; exact s
    · obtain ⟨ctx, hc, hr⟩ := bind_inv hr
      obtain ⟨w1, hm, hr⟩ := bind_inv hr
      cases hr
      exact sel_modifyView i s (removeLens_live i) hm
  | move c d e => exact sel_move s h
  | deleteSelection c => obtain ⟨r, hr, rfl⟩ := map_inv h; exact sel_deleteSelection s hr
  | append b x xs => exact sel_append s h
  | debug t => exact sel_debug s h
  | message c t =>
    have h : w.message env c t = .ok w' := h
    unfold message at h
    obtain ⟨w1, h1, h⟩ := bind_inv h
    cases h
    have s1 := sel_append s h1
    cases c <;> exact sel_same s1 rfl rfl
  | error c t1 t2 =>
    have h : w.error env c t1 t2 = .ok w' := h
    unfold error at h
    obtain ⟨w1, h1, h⟩ := bind_inv h
    cases h
    have s1 := sel_append s h1
    cases c <;> exact sel_same s1 rfl rfl
  | notify c n => cases h; exact sel_same s rfl rfl

theorem sel_history (h : CoreHistory Ordinary w) : Sel (fun _ => False) w := by
  have key : Inv w ∧ Sel (fun _ => False) w := by
    induction h with
    | start h => exact ⟨inv_start h, sel_start h⟩
    | step _ ho _ h ih => exact ⟨inv_op ih.1 ho.1 h, sel_op ih.1 ih.2 ho h⟩
  exact key.2

theorem sel_has (i : Inv w) (s : Sel (fun _ => False) w) : HasSelections w := by
  intro c ctx hc
  obtain ⟨sels, hs, hb⟩ := s.all c ctx _ _ hc (i.clients c ctx hc) (by simp)
  refine ⟨sels, hs, fun b hm => ?_⟩
  obtain ⟨l, hl⟩ := Assoc.has_iff.1 (hb b hm)
  obtain ⟨x, rfl⟩ := s.single c ctx hc _ _ _ _ hs hl
  exact ⟨x, hl⟩

end World
end Ced

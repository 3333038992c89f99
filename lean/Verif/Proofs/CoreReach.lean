import Verif.Proofs.CoreInv

/-! # The invariant of the core -/

namespace Ced
open Spec

namespace World
variable {env : Env} {w w' : World}

/-- what holds in every state reached with clean names -/
structure Inv (w : World) : Prop where
  names : ∀ n, w.buffers.has n = true → '{' ∉ n
  views : ∀ k v, w.views.map.get k = some v →
    v.key = k ∧ View.WF v ∧ v ≠ [] ∧ ∀ b ∈ v.buffers, w.buffers.has b = true
  clients : ∀ c ctx, w.clients.map.get c = some ctx → w.views.map.get ctx.view.key = some ctx.view
  top : ∃ v, w.views.latestValue = some v
  nodup : w.views.stack.Nodup
  vnodup : (Assoc.keys w.views.map).Nodup
  mode : w.debugMode = true
  cnodup : (Assoc.keys w.clients.map).Nodup
  cstack : ∀ c, c ∈ w.clients.stack ↔ w.clients.map.has c = true
  csnodup : w.clients.stack.Nodup

/-- changes of the buffers only -/
theorem inv_buffers (i : Inv w) (h1 : w'.clients = w.clients) (h2 : w'.views = w.views) (h3 : w'.debugMode = w.debugMode)
    (h4 : ∀ n, w.buffers.has n = true → w'.buffers.has n = true)
    (h5 : ∀ n, w'.buffers.has n = true → w.buffers.has n = true ∨ '{' ∉ n) : Inv w' := by
  refine ⟨?_, ?_, ?_, ?_, ?_, ?_, ?_, ?_, ?_, ?_⟩
  · intro n hn; rcases h5 n hn with h | h
    · exact i.names n h
    · exact h
  · intro k v hv
    rw [h2] at hv
    obtain ⟨a, b, c, d⟩ := i.views k v hv
    exact ⟨a, b, c, fun b hb => h4 b (d b hb)⟩
  · intro c ctx hc; rw [h1] at hc; rw [h2]; exact i.clients c ctx hc
  · rw [h2]; exact i.top
  · rw [h2]; exact i.nodup
  · rw [h2]; exact i.vnodup
  · rw [h3]; exact i.mode
  · rw [h1]; exact i.cnodup
  · rw [h1]; exact i.cstack
  · rw [h1]; exact i.csnodup

theorem logged_has (l : Logged w w') : ∀ n, w'.buffers.has n = true → w.buffers.has n = true ∨ '{' ∉ n := by
  intro n hn
  by_cases h : n = BUFFER_DEBUG
  · right; rw [h]; decide
  · left; unfold Assoc.has at *; rw [l.others n h] at hn; exact hn

theorem inv_logged (i : Inv w) (l : Logged w w') : Inv w' :=
  inv_buffers i l.clients l.views l.mode l.keeps (logged_has l)

theorem inv_debug (i : Inv w) {t : Str} (h : w.debug env t = .ok w') : Inv w' := inv_logged i (debug_ok h)

theorem inv_setBuffer (i : Inv w) {name : Str} (hn : '{' ∉ name) (b : Buffer) (o : List Broadcast) :
    Inv { w with buffers := w.buffers.set name b, out := o } := by
  refine inv_buffers i rfl rfl rfl ?_ ?_
  · intro n h; show Assoc.has (Assoc.set w.buffers name b) n = true; rw [Assoc.has_set, h]; simp
  · intro n h
    have h : Assoc.has (Assoc.set w.buffers name b) n = true := h
    rw [Assoc.has_set] at h
    by_cases e : n = name
    · right; rw [e]; exact hn
    · left; simpa [e] using h

theorem inv_out (i : Inv w) (o : List Broadcast) : Inv { w with out := o } :=
  inv_buffers i rfl rfl rfl (fun _ h => h) (fun _ h => Or.inl h)

theorem inv_notify (i : Inv w) {ids : List Nat} (h : w.notifyViewUpdate env ids = .ok w') : Inv w' := by
  obtain ⟨p, _, rfl⟩ := notify_ok h
  exact inv_out i _

theorem inv_append (i : Inv w) {name : Str} (hn : '{' ∉ name) {text : Bytes} (h : w.appendTo env name text = .ok w') :
    Inv w' := by
  obtain ⟨o, rfl⟩ := appendTo_ok h
  exact inv_setBuffer i hn _ _

/-- changes of the clients that keep their views registered -/
theorem inv_clients (i : Inv w) {m : Assoc Nat ClientContext} (hk : Assoc.keys m = Assoc.keys w.clients.map)
    (hv : ∀ c ctx, m.get c = some ctx → w.views.map.get ctx.view.key = some ctx.view) :
    Inv { w with clients := { w.clients with map := m } } := by
  refine ⟨i.names, i.views, hv, i.top, i.nodup, i.vnodup, i.mode, ?_, ?_, i.csnodup⟩
  · show (Assoc.keys m).Nodup; rw [hk]; exact i.cnodup
  · intro c
    show _ ↔ m.has c = true
    rw [← Assoc.mem_keys, hk, Assoc.mem_keys]; exact i.cstack c

theorem inv_mapClients (i : Inv w) {f : Nat → ClientContext → ClientContext} (hf : ∀ c ctx, (f c ctx).view = ctx.view) :
    Inv (w.mapClients f) := by
  refine inv_clients i (Assoc.keys_mapVals _ _) ?_
  intro c ctx h
  rw [Assoc.get_mapVals] at h
  cases hc : w.clients.map.get c with
  | none => rw [hc] at h; cases h
  | some x => rw [hc] at h; cases h; rw [hf]; exact i.clients c x hc

theorem keys_set_present {K V : Type} [DecidableEq K] {m : Assoc K V} {k : K} {v v' : V} (h : m.get k = some v') :
    Assoc.keys (m.set k v) = Assoc.keys m := by
  rw [Assoc.keys_set, if_pos (Assoc.mem_keys.2 (Assoc.has_iff.2 ⟨_, h⟩))]

theorem inv_setClient (i : Inv w) {c : Nat} {ctx ctx' : ClientContext} (hc : w.clients.map.get c = some ctx)
    (hv : w.views.map.get ctx'.view.key = some ctx'.view) :
    Inv { w with clients := { w.clients with map := w.clients.map.set c ctx' } } := by
  refine inv_clients i (keys_set_present hc) ?_
  intro d x h
  rw [Assoc.get_set] at h
  split at h
  · cases h; exact hv
  · exact i.clients d x h

theorem addSelections_view (v : View) (ctx : ClientContext) : (addSelections v ctx).view = ctx.view := rfl

/-- a view of existing buffers equals the registered one with the same identifier -/
theorem same_view (i : Inv w) {v v' : View} (hb : ∀ b ∈ v.buffers, w.buffers.has b = true)
    (h : w.views.map.get v.key = some v') : v' = v := by
  obtain ⟨a, _, _, d⟩ := i.views _ _ h
  exact key_inj (fun b hm => i.names b (d b hm)) (fun b hm => i.names b (hb b hm)) a

theorem inv_addView (i : Inv w) {v : View} (hwf : View.WF v) (hne : v ≠ []) (hb : ∀ b ∈ v.buffers, w.buffers.has b = true)
    (h : w.addView v = .ok w') : Inv w' := by
  obtain ⟨st, e, hst⟩ := addView_ok w v
  rw [e] at h
  cases h
  have hst := hst i.nodup
  refine ⟨i.names, ?_, ?_, ?_, ?_, Assoc.nodup_set i.vnodup _ _, i.mode, ?_, ?_, i.csnodup⟩
  · intro k v' hv'
    have hv' : Assoc.get (w.views.map.set v.key v) k = some v' := hv'
    rw [Assoc.get_set] at hv'
    split at hv'
    · rename_i hk; cases hv'; exact ⟨hk.symm, hwf, hne, hb⟩
    · exact i.views k v' hv'
  · intro c ctx hc
    have hc : Assoc.get (w.clients.map.mapVals fun _ ctx => addSelections v ctx) c = some ctx := hc
    rw [Assoc.get_mapVals] at hc
    cases hx : w.clients.map.get c with
    | none => rw [hx] at hc; cases hc
    | some x =>
      rw [hx] at hc
      cases hc
      show Assoc.get (w.views.map.set v.key v) x.view.key = some x.view
      have hxv := i.clients c x hx
      rw [Assoc.get_set]
      split
      · rename_i hk
        rw [hk] at hxv
        rw [same_view i hb hxv]
      · exact hxv
  · refine ⟨v, ?_⟩
    show Assoc.get (w.views.map.set v.key v) v.key = some v
    simp
  · show (v.key :: st).Nodup
    rw [hst, List.nodup_cons]
    exact ⟨by simp, i.nodup.filter _⟩
  · show (Assoc.keys (w.clients.map.mapVals fun _ ctx => addSelections v ctx)).Nodup
    rw [Assoc.keys_mapVals]; exact i.cnodup
  · intro c
    show _ ↔ Assoc.has (w.clients.map.mapVals fun _ ctx => addSelections v ctx) c = true
    rw [Assoc.has_mapVals]; exact i.cstack c

theorem forBuffer_buffers (b : Str) : (View.forBuffer b).buffers = [b] := rfl
theorem forBuffer_wf (b : Str) : View.WF (View.forBuffer b) := View.wf_addLens View.wf_nil b .whole
theorem forBuffer_ne (b : Str) : View.forBuffer b ≠ [] := by simp [View.forBuffer, View.addLens]

theorem inv_closed (i : Inv w) {id : Str} {v : View} (hv : w.views.map.get id = some v) (hd : Closed id v w w')
    {c : Nat} {ctx : ClientContext} (hc : w.clients.map.get c = some ctx) (hk : ctx.view.key = id) : Inv w' := by
  obtain ⟨latest, hl, hcl⟩ := hd.latest
  -- the registered views
  have hreg : ∀ k v', w'.views.map.get k = some v' →
      (w.views.map.del id ≠ [] ∧ k ≠ id ∧ w.views.map.get k = some v') ∨
      (w.views.map.del id = [] ∧ k = lastResort.key ∧ v' = lastResort) := by
    intro k v' h
    rw [hd.map] at h
    split at h
    · rename_i he
      right
      simp only [Assoc.get] at h
      split at h
      · rename_i hk; cases h; exact ⟨he, hk.symm, rfl⟩
      · cases h
    · rename_i he
      left
      rw [Assoc.get_del] at h
      split at h
      · cases h
      · rename_i hne; exact ⟨he, hne, h⟩
  have hwfl : View.WF latest := by
    unfold StackMap.latestValue at hl
    cases hh : w'.views.stack.head? with
    | none => rw [hh] at hl; cases hl
    | some k =>
      rw [hh] at hl
      rcases hreg k latest hl with ⟨_, _, h⟩ | ⟨_, _, rfl⟩
      · exact (i.views k latest h).2.1
      · exact forBuffer_wf _
  have hneeds := hd.needs c ctx hc hk latest hl hwfl
  have hhas : ∀ b, w.buffers.has b = true → (b ∉ v.buffers ∨ ∃ kv ∈ w.views.map.del id, b ∈ kv.2.buffers) →
      w'.buffers.has b = true := by
    intro b hb hor
    by_cases hbd : b = BUFFER_DEBUG
    · rw [hbd]; exact hd.log
    · unfold Assoc.has at *; rw [hd.kept b hbd hor]; exact hb
  refine ⟨?_, ?_, ?_, ⟨latest, hl⟩, ?_, ?_, hd.mode.trans i.mode, ?_, ?_, ?_⟩
  · intro n hn
    by_cases hbd : n = BUFFER_DEBUG
    · rw [hbd]; decide
    · by_cases hor : n ∉ v.buffers ∨ ∃ kv ∈ w.views.map.del id, n ∈ kv.2.buffers
      · apply i.names; unfold Assoc.has at *; rw [hd.kept n hbd hor] at hn; exact hn
      · rw [not_or, Classical.not_not] at hor
        unfold Assoc.has at hn
        rw [hd.gone n hbd hor.1 hor.2] at hn
        cases hn
  · intro k v' h
    rcases hreg k v' h with ⟨_, hne, h⟩ | ⟨he, rfl, rfl⟩
    · obtain ⟨p, q, r, s⟩ := i.views k v' h
      refine ⟨p, q, r, fun b hb => hhas b (s b hb) (Or.inr ⟨(k, v'), ?_, hb⟩)⟩
      apply Assoc.get_mem
      rw [Assoc.get_del, if_neg hne]; exact h
    · refine ⟨rfl, forBuffer_wf _, forBuffer_ne _, ?_⟩
      have : latest = lastResort := by
        unfold StackMap.latestValue at hl
        rw [hd.order' he] at hl
        have h : w'.views.map.get lastResort.key = some latest := hl
        rcases hreg _ _ h with ⟨he', _⟩ | ⟨_, _, e⟩
        · exact absurd he he'
        · exact e
      rw [this] at hneeds
      exact hneeds
  · intro d x hx
    rw [hcl, Assoc.get_mapVals] at hx
    cases hy : w.clients.map.get d with
    | none => rw [hy] at hx; cases hx
    | some y =>
      rw [hy] at hx
      cases hx
      show w'.views.map.get (afterClose id _ latest y).view.key = some (afterClose id _ latest y).view
      unfold afterClose relocated
      rw [stripped_view]
      split
      · show w'.views.map.get latest.key = some latest
        unfold StackMap.latestValue at hl
        cases hh : w'.views.stack.head? with
        | none => rw [hh] at hl; cases hl
        | some k =>
          rw [hh] at hl
          have hl : w'.views.map.get k = some latest := hl
          rcases hreg k latest hl with ⟨_, _, h⟩ | ⟨_, h1, h2⟩
          · rw [(i.views k latest h).1]; exact hl
          · rw [h2, ← h1, ← h2]; exact hl
      · rename_i hne
        have hyv := i.clients d y hy
        have : w.views.map.del id ≠ [] := by
          intro he
          have := Assoc.get_del w.views.map id y.view.key
          rw [he, if_neg hne, hyv] at this
          cases this
        rw [stripped_view, hd.map, if_neg this, Assoc.get_del, if_neg hne]
        exact hyv
  · by_cases he : w.views.map.del id = []
    · -- the stack of a single view
      exact hd.nodup' i.nodup he
    · rw [hd.order i.nodup he]; exact i.nodup.filter _
  · rw [hd.map]
    split
    · simp [Assoc.keys]
    · exact Assoc.nodup_del i.vnodup id
  · rw [hcl, Assoc.keys_mapVals]; exact i.cnodup
  · intro d; rw [hd.stack, hcl, Assoc.has_mapVals]; exact i.cstack d
  · rw [hd.stack]; exact i.csnodup

theorem remove_cases {K V : Type} [DecidableEq K] (m : StackMap K V) (k : K) :
    (k ∉ m.stack ∧ (m.remove k).1 = m) ∨
    (k ∈ m.stack ∧ (m.remove k).1.map = m.map.del k ∧
      (m.stack.Nodup → (m.remove k).1.stack = m.stack.filter (· ≠ k))) := by
  unfold StackMap.remove
  cases hf : m.stack.findIdx? (· = k) with
  | none => exact Or.inl ⟨findIdx_none.1 hf, rfl⟩
  | some i =>
    right
    refine ⟨?_, rfl, ?_⟩
    · by_cases hk : k ∈ m.stack
      · exact hk
      · rw [findIdx_none.2 hk] at hf; cases hf
    · intro hn
      have := eraseIdx_findIdx hn k
      rw [hf] at this
      exact this

theorem inv_removeClient (i : Inv w) {id : Nat} (h : w.removeClient env id = .ok w') : Inv w' := by
  unfold removeClient at h
  refine inv_debug ?_ h
  rcases remove_cases w.clients id with ⟨_, e⟩ | ⟨_, e1, e2⟩
  · rw [e]; exact i
  · have e2 := e2 i.csnodup
    refine ⟨i.names, i.views, ?_, i.top, i.nodup, i.vnodup, i.mode, ?_, ?_, ?_⟩
    · intro c ctx hc
      have hc : (w.clients.remove id).1.map.get c = some ctx := hc
      rw [e1, Assoc.get_del] at hc
      split at hc
      · cases hc
      · exact i.clients c ctx hc
    · show (Assoc.keys (w.clients.remove id).1.map).Nodup
      rw [e1]; exact Assoc.nodup_del i.cnodup id
    · intro c
      show c ∈ (w.clients.remove id).1.stack ↔ (w.clients.remove id).1.map.has c = true
      rw [e1, e2, Assoc.has_del, List.mem_filter, i.cstack]
      simp [and_comm]
    · show (w.clients.remove id).1.stack.Nodup
      rw [e2]; exact i.csnodup.filter _

theorem inv_addClient (i : Inv w) {id : Nat} {session : Str} (h : w.addClient env id session = .ok w') : Inv w' := by
  unfold addClient at h
  obtain ⟨context, hctx, h⟩ := bind_inv h
  obtain ⟨r, hins, h⟩ := bind_inv h
  obtain ⟨w1, hd, h⟩ := bind_inv h
  cases h
  refine inv_out ?_ _
  refine inv_debug ?_ hd
  obtain ⟨st, e, hst⟩ := StackMap.insert_ok w.clients id context
  rw [e] at hins
  cases hins
  have hst := hst i.csnodup
  have hv : w.views.map.get context.view.key = some context.view := by
    unfold joinContext at hctx
    cases hl : w.clients.latest with
    | some c =>
      rw [hl] at hctx
      exact i.clients c context (Assoc.at_inv hctx)
    | none =>
      rw [hl] at hctx
      obtain ⟨v, hv, hctx⟩ := bind_inv hctx
      cases hctx
      have hv := unwrap_inv hv
      unfold StackMap.latestValue at hv
      cases hh : w.views.stack.head? with
      | none => rw [hh] at hv; cases hv
      | some k =>
        rw [hh] at hv
        have hv : w.views.map.get k = some v := hv
        show w.views.map.get v.key = some v
        rw [(i.views k v hv).1]; exact hv
  refine ⟨i.names, i.views, ?_, i.top, i.nodup, i.vnodup, i.mode, ?_, ?_, ?_⟩
  · intro c ctx hc
    have hc : Assoc.get (w.clients.map.set id context) c = some ctx := hc
    rw [Assoc.get_set] at hc
    split at hc
    · cases hc; exact hv
    · exact i.clients c ctx hc
  · exact Assoc.nodup_set i.cnodup id context
  · intro c
    show c ∈ id :: st ↔ Assoc.has (w.clients.map.set id context) c = true
    rw [hst, Assoc.has_set, List.mem_cons, List.mem_filter, i.cstack]
    by_cases hc : c = id <;> simp [hc]
  · show (id :: st).Nodup
    rw [hst, List.nodup_cons]
    exact ⟨by simp, i.csnodup.filter _⟩

theorem inv_view (i : Inv w) {c : Nat} {id : Str} {e : Option CoreError} (h : w.view env c id = .ok (w', e)) : Inv w' := by
  unfold view at h
  split at h
  · obtain ⟨v, hv, h⟩ := bind_inv h
    obtain ⟨ctx, hc, h⟩ := bind_inv h
    obtain ⟨w1, hn, h⟩ := bind_inv h
    cases h
    refine inv_notify ?_ hn
    have hv := Assoc.at_inv hv
    refine inv_setClient i (unwrap_inv hc) ?_
    show w.views.map.get v.key = some v
    rw [(i.views id v hv).1]; exact hv
  · split at h
    · rename_i hbe
      obtain ⟨ctx, hc, h⟩ := bind_inv h
      obtain ⟨w1, hn, h⟩ := bind_inv h
      cases h
      refine inv_notify ?_ hn
      have hb : ∀ b ∈ (View.forBuffer id).buffers, w.buffers.has b = true := by
        intro b hb
        rw [forBuffer_buffers, List.mem_singleton] at hb
        rw [hb]; exact hbe
      have hget : ∀ k, Assoc.get (w.views.map.orInsert (View.forBuffer id).key (View.forBuffer id)) k =
          if k = (View.forBuffer id).key then some (View.forBuffer id) else w.views.map.get k := by
        intro k
        rw [Assoc.get_orInsert]
        split
        · cases hg : w.views.map.get (View.forBuffer id).key with
          | none => rfl
          | some v' => rw [same_view i hb hg]; rfl
        · rfl
      have hold : ∀ k v, w.views.map.get k = some v →
          Assoc.get (w.views.map.orInsert (View.forBuffer id).key (View.forBuffer id)) k = some v := by
        intro k v hk
        rw [hget]
        split
        · rename_i e; rw [e] at hk; rw [same_view i hb hk]
        · exact hk
      refine ⟨i.names, ?_, ?_, ?_, i.nodup, Assoc.nodup_orInsert i.vnodup _ _, i.mode, ?_, ?_, i.csnodup⟩
      · intro k v hv
        have hv : Assoc.get (w.views.map.orInsert (View.forBuffer id).key (View.forBuffer id)) k = some v := hv
        rw [hget] at hv
        split at hv
        · rename_i hk; cases hv; exact ⟨hk.symm, forBuffer_wf _, forBuffer_ne _, hb⟩
        · exact i.views k v hv
      · intro d x hx
        have hx : Assoc.get (w.clients.map.set c { ctx with view := View.forBuffer id }) d = some x := hx
        rw [Assoc.get_set] at hx
        split at hx
        · cases hx
          show Assoc.get (w.views.map.orInsert (View.forBuffer id).key (View.forBuffer id)) (View.forBuffer id).key = _
          rw [hget, if_pos rfl]
        · exact hold _ _ (i.clients d x hx)
      · obtain ⟨v, hv⟩ := i.top
        refine ⟨v, ?_⟩
        unfold StackMap.latestValue at *
        cases hh : w.views.stack.head? with
        | none => rw [hh] at hv; cases hv
        | some k =>
          rw [hh] at hv
          exact hold k v hv
      · show (Assoc.keys (w.clients.map.set c _)).Nodup
        exact Assoc.nodup_set i.cnodup c _
      · intro d
        show _ ↔ Assoc.has (w.clients.map.set c _) d = true
        rw [← Assoc.mem_keys, keys_set_present (unwrap_inv hc), Assoc.mem_keys]
        exact i.cstack d
    · cases h; exact i

theorem inv_openForEdit (i : Inv w) {name : Str} (hn : '{' ∉ name) {s b : Bool}
    (h : w.openForEdit env name s = .ok (w', b)) : Inv w' ∧ w'.buffers.has name = true := by
  unfold openForEdit at h
  have hs : ∀ (w : World) (b : Buffer), Assoc.has (w.buffers.set name b) name = true := by
    intro w b; rw [Assoc.has_set]; simp
  split at h
  · cases h; exact ⟨inv_setBuffer i hn _ _, hs w _⟩
  · rename_i hg; cases h; exact ⟨i, Assoc.has_iff.2 ⟨_, hg⟩⟩
  · obtain ⟨r, hl, h⟩ := bind_inv h
    dsimp only at h
    split at h
    · obtain ⟨w1, hd, h⟩ := bind_inv h
      cases h
      exact ⟨inv_debug (inv_setBuffer i hn _ w.out) hd, (debug_ok hd).keeps name (hs w _)⟩
    · cases h
      exact ⟨inv_setBuffer i hn _ _, hs w _⟩
  · obtain ⟨w1, ho, h⟩ := bind_inv h
    cases h
    obtain ⟨b, _, rfl⟩ := openFile_ok ho
    exact ⟨inv_setBuffer i hn _ _, hs w _⟩

theorem inv_edit (i : Inv w) {c : Nat} {name : Str} (hn : '{' ∉ name) {s : Bool}
    (h : w.edit env c name s = .ok w') : Inv w' := by
  unfold edit at h
  obtain ⟨r, ho, h⟩ := bind_inv h
  obtain ⟨i1, hb⟩ := inv_openForEdit i hn ho
  obtain ⟨w2, ha, h⟩ := bind_inv h
  have i2 := inv_addView i1 (forBuffer_wf name) (forBuffer_ne name) (by
    intro b hm
    rw [forBuffer_buffers, List.mem_singleton] at hm; rw [hm]; exact hb) ha
  obtain ⟨r3, hv, h⟩ := bind_inv h
  have i3 := inv_view i2 hv
  dsimp only at h
  split at h
  · cases h
  · obtain ⟨w4, hd, h⟩ := bind_inv h
    have i4 := inv_debug i3 hd
    split at h
    · exact inv_notify i4 h
    · cases h; exact i4

theorem inv_deleteView (i : Inv w) {id : Str} {e : Option CoreError} (h : w.deleteView env id = .ok (w', e))
    {c : Nat} {ctx : ClientContext} (hc : w.clients.map.get c = some ctx) (hk : ctx.view.key = id) : Inv w' := by
  rcases deleteView_ok i.mode i.cnodup h with ⟨_, _, rfl⟩ | ⟨v, hv, _, _, hd⟩
  · exact i
  · exact inv_closed i hv hd hc hk

theorem moveSelections_view (o n : Str) (ctx : ClientContext) : (moveSelections o n ctx).view = ctx.view := by
  unfold moveSelections; split <;> rfl

theorem inv_modifyView (i : Inv w) {id : Str} {f : View → View} {c : Nat} {ctx : ClientContext}
    (hc : w.clients.map.get c = some ctx) (hk : ctx.view.key = id)
    (hf : ∀ v, w.views.map.get id = some v → View.WF (f v) ∧ ∀ b ∈ (f v).buffers, w.buffers.has b = true)
    (h : w.modifyView env id f = .ok w') : Inv w' := by
  unfold modifyView at h
  obtain ⟨v, hv, h⟩ := bind_inv h
  have hv := Assoc.at_inv hv
  obtain ⟨hwf, hb⟩ := hf v hv
  have hkey := (i.views id v hv).1
  dsimp only at h
  split at h
  · split at h
    · rename_i hne hem
      obtain ⟨w1, h1, h⟩ := bind_inv h
      obtain ⟨r, hd, h⟩ := bind_inv h
      have i0 : Inv (w.mapClients fun _ => moveSelections v.key (f v).key) :=
        inv_mapClients i fun _ ctx => moveSelections_view _ _ ctx
      have i1 := inv_addView i0 hwf (by intro e; rw [e] at hem; cases hem) hb h1
      have hc1 : ∃ ctx1, w1.clients.map.get c = some ctx1 ∧ ctx1.view.key = id := by
        obtain ⟨st, e, _⟩ := addView_ok (w.mapClients fun _ => moveSelections v.key (f v).key) (f v)
        rw [e] at h1
        cases h1
        refine ⟨addSelections (f v) (moveSelections v.key (f v).key ctx), ?_, ?_⟩
        · show Assoc.get (Assoc.mapVals (w.clients.map.mapVals fun _ => moveSelections v.key (f v).key) fun _ ctx => addSelections (f v) ctx) c = _
          rw [mapVals_comp, Assoc.get_mapVals, hc]; rfl
        · rw [addSelections_view, moveSelections_view]; exact hk
      obtain ⟨ctx1, hc1, hk1⟩ := hc1
      rw [hkey] at hd
      have i2 := inv_deleteView i1 hd hc1 hk1
      split at h
      · cases h; exact i2
      · cases h
    · obtain ⟨w1, h1, h⟩ := bind_inv h
      cases h1
      obtain ⟨r, hd, h⟩ := bind_inv h
      rw [hkey] at hd
      have i2 := inv_deleteView i hd hc hk
      split at h
      · cases h; exact i2
      · cases h
  · cases h; exact i

theorem addLens_live (i : Inv w) {id b : Str} (hb : w.buffers.has b = true) :
    ∀ v, w.views.map.get id = some v → View.WF (v.addLens b .whole) ∧
      ∀ b' ∈ (v.addLens b .whole).buffers, w.buffers.has b' = true := by
  intro v hv
  obtain ⟨_, hwf, _, hx⟩ := i.views _ v hv
  refine ⟨View.wf_addLens hwf _ _, ?_⟩
  intro b' hb'
  obtain ⟨x, hxm, rfl⟩ := List.mem_map.1 hb'
  rcases View.mem_addLens hxm with e | hm
  · rw [e]; exact hb
  · exact hx _ (List.mem_map.2 ⟨x, hm, rfl⟩)

theorem removeLens_live (i : Inv w) {id b : Str} :
    ∀ v, w.views.map.get id = some v → View.WF (if v.containsBuffer b then v.removeLensGroup b else v) ∧
      ∀ b' ∈ (if v.containsBuffer b then v.removeLensGroup b else v).buffers, w.buffers.has b' = true := by
  intro v hv
  obtain ⟨_, hwf, _, hx⟩ := i.views _ v hv
  split
  · refine ⟨View.wf_remove hwf _, ?_⟩
    intro b' hb'
    obtain ⟨x, hxm, rfl⟩ := List.mem_map.1 hb'
    exact hx _ (List.mem_map.2 ⟨x, (List.mem_filter.1 hxm).1, rfl⟩)
  · exact ⟨hwf, hx⟩

theorem inv_add (i : Inv w) {c : Nat} {b : Str} {e : Option CoreError} (h : w.addToCurrentView env c b = .ok (w', e)) :
    Inv w' := by
  unfold addToCurrentView at h
  split at h
  · cases h; exact i
  · rename_i hb
    obtain ⟨ctx, hc, h⟩ := bind_inv h
    obtain ⟨w1, hm, h⟩ := bind_inv h
    cases h
    exact inv_modifyView i (Assoc.at_inv hc) rfl (addLens_live i (by simpa [bufferExists] using hb)) hm

theorem inv_remove (i : Inv w) {c : Nat} {b : Str} {e : Option CoreError}
    (h : w.removeFromCurrentView env c b = .ok (w', e)) : Inv w' := by
  unfold removeFromCurrentView at h
  split at h
  · cases h; exact i
  · rename_i hb
    obtain ⟨ctx, hc, h⟩ := bind_inv h
    obtain ⟨w1, hm, h⟩ := bind_inv h
    cases h
    exact inv_modifyView i (Assoc.at_inv hc) rfl (removeLens_live i) hm

theorem inv_move (i : Inv w) {c : Nat} {dir : CursorTarget} {ext : Bool} (h : w.moveCursor env c dir ext = .ok w') :
    Inv w' := by
  unfold moveCursor at h
  obtain ⟨ctx, hc, h⟩ := bind_inv h
  obtain ⟨sels, hs, h⟩ := bind_inv h
  obtain ⟨sels', hm, h⟩ := bind_inv h
  have hc := Assoc.at_inv hc
  have i1 := inv_setClient i (ctx' := { ctx with selections := ctx.selections.set ctx.view.key sels' }) hc (i.clients c ctx hc)
  dsimp only at h
  split at h
  · exact inv_notify i1 h
  · cases h; exact i1

theorem inv_clamp (i : Inv w) {c : Nat} {name : Str} (h : w.clampSelections c name = .ok w') : Inv w' := by
  unfold clampSelections at h
  obtain ⟨b, hb, h⟩ := bind_inv h
  obtain ⟨m, hm, h⟩ := bind_inv h
  obtain ⟨ctx, hc, h⟩ := bind_inv h
  obtain ⟨ss, hs, h⟩ := bind_inv h
  obtain ⟨sels, hl, h⟩ := bind_inv h
  cases h
  have hc := unwrap_inv hc
  exact inv_setClient i hc (i.clients c ctx hc)

theorem inv_deleteStep {st st' : World × List Bytes × List Str} {x : Str × List Selection} (i : Inv st.1)
    (h : deleteStep env st x = .ok st') : Inv st'.1 := by
  unfold deleteStep at h
  obtain ⟨b, hb, h⟩ := bind_inv h
  obtain ⟨r, hr, h⟩ := bind_inv h
  cases h
  have hb := unwrap_inv hb
  exact inv_setBuffer i (i.names _ (Assoc.has_iff.2 ⟨_, hb⟩)) _ st.1.out

theorem inv_deleteSelection (i : Inv w) {c : Nat} {r : List Bytes} (h : w.deleteSelection env c = .ok (w', r)) :
    Inv w' := by
  unfold deleteSelection at h
  obtain ⟨ctx, hc, h⟩ := bind_inv h
  obtain ⟨sels, hs, h⟩ := bind_inv h
  obtain ⟨⟨w1, del, mod⟩, h1, h⟩ := bind_inv h
  have i1 : Inv w1 := foldlM_ind (P := fun st => Inv st.1) h1 i fun x _ a a' ia ha => inv_deleteStep ia ha
  obtain ⟨w2, h2, h⟩ := bind_inv h
  have i2 : Inv w2 := foldlM_ind (P := Inv) h2 i1 fun x _ a a' ia ha => inv_clamp ia ha
  split at h
  · obtain ⟨w3, h3, h⟩ := bind_inv h
    cases h
    exact inv_notify i2 h3
  · cases h; exact i2

theorem inv_start {cwd : Path} {args cwdText : Str} (h : World.start env cwd args cwdText = .ok w) : Inv w := by
  unfold start at h
  obtain ⟨w1, h1, h⟩ := bind_inv h
  obtain ⟨w2, h2, h⟩ := bind_inv h
  have l1 := debug_ok h1
  have l2 := debug_ok h2
  have hcl : w2.clients = StackMap.new := l2.clients.trans l1.clients
  have hvw : w2.views = StackMap.new := l2.views.trans l1.views
  have hmode : w2.debugMode = true := l2.mode.trans l1.mode
  have hdbg : w2.buffers.has BUFFER_DEBUG = true := l2.exist (l1.mode.trans rfl)
  have hoth : ∀ n, n ≠ BUFFER_DEBUG → w2.buffers.get n = none := by
    intro n hn; rw [l2.others n hn, l1.others n hn]; rfl
  dsimp only at h
  obtain ⟨st, e, hst⟩ := addView_ok (w2.openScratch BUFFER_SCRATCH [])
    ((View.addLens [] BUFFER_DEBUG .whole).addLens BUFFER_SCRATCH .whole)
  rw [e] at h
  cases h
  have hst := hst (by show w2.views.stack.Nodup; rw [hvw]; exact List.nodup_nil)
  have hsets : ∀ n, Assoc.has (w2.openScratch BUFFER_SCRATCH []).buffers n = (decide (n = BUFFER_SCRATCH) || w2.buffers.has n) := by
    intro n; exact Assoc.has_set _ _ _ _
  refine ⟨?_, ?_, ?_, ?_, ?_, ?_, hmode, ?_, ?_, ?_⟩
  · intro n hn
    have hn : Assoc.has (w2.openScratch BUFFER_SCRATCH []).buffers n = true := hn
    rw [hsets] at hn
    by_cases h1 : n = BUFFER_SCRATCH
    · rw [h1]; decide
    · by_cases h2 : n = BUFFER_DEBUG
      · rw [h2]; decide
      · unfold Assoc.has at hn; rw [hoth n h2] at hn; simp [h1] at hn
  · intro k v hv
    have hv : Assoc.get (Assoc.set w2.views.map _ _) k = some v := hv
    rw [hvw, Assoc.get_set] at hv
    split at hv
    · rename_i hk
      cases hv
      refine ⟨hk.symm, View.wf_addLens (View.wf_addLens View.wf_nil _ _) _ _, by decide, ?_⟩
      intro b hb
      have hb : b ∈ [BUFFER_DEBUG, BUFFER_SCRATCH] := hb
      show Assoc.has (w2.openScratch BUFFER_SCRATCH []).buffers b = true
      rw [hsets]
      simp at hb
      rcases hb with rfl | rfl
      · rw [hdbg]; simp
      · simp
    · cases hv
  · intro c ctx hc
    have hc : Assoc.get (Assoc.mapVals w2.clients.map (fun _ ctx => addSelections ((View.addLens [] BUFFER_DEBUG .whole).addLens BUFFER_SCRATCH .whole) ctx)) c = some ctx := hc
    rw [hcl] at hc
    cases hc
  · refine ⟨(View.addLens [] BUFFER_DEBUG .whole).addLens BUFFER_SCRATCH .whole, ?_⟩
    show Assoc.get (Assoc.set w2.views.map _ _) _ = some _
    simp
  · show (_ :: st).Nodup
    rw [hst]
    show (_ :: List.filter _ w2.views.stack).Nodup
    rw [hvw]
    simp [StackMap.new]
  · show (Assoc.keys (Assoc.set w2.views.map _ _)).Nodup
    rw [hvw]
    simp [StackMap.new, Assoc.set, Assoc.keys]
  · show (Assoc.keys (Assoc.mapVals w2.clients.map (fun _ ctx => addSelections ((View.addLens [] BUFFER_DEBUG .whole).addLens BUFFER_SCRATCH .whole) ctx))).Nodup
    rw [hcl]; exact List.nodup_nil
  · intro c
    show c ∈ w2.clients.stack ↔ Assoc.has (Assoc.mapVals w2.clients.map (fun _ ctx => addSelections ((View.addLens [] BUFFER_DEBUG .whole).addLens BUFFER_SCRATCH .whole) ctx)) c = true
    rw [hcl]; simp [StackMap.new, Assoc.mapVals, Assoc.has]
  · show w2.clients.stack.Nodup
    rw [hcl]; exact List.nodup_nil

theorem inv_message (i : Inv w) {c : Option Nat} {t : Str} (h : w.message env c t = .ok w') : Inv w' := by
  unfold message at h
  obtain ⟨w1, h1, h⟩ := bind_inv h
  cases h
  have i1 := inv_append i (by decide) h1
  cases c <;> exact inv_out i1 _

theorem inv_error (i : Inv w) {c : Option Nat} {t1 t2 : Str} (h : w.error env c t1 t2 = .ok w') : Inv w' := by
  unfold error at h
  obtain ⟨w1, h1, h⟩ := bind_inv h
  cases h
  have i1 := inv_append i (by decide) h1
  cases c <;> exact inv_out i1 _

theorem inv_op (i : Inv w) {op : CoreOp} (hn : CleanName w op) (h : op.run env w = .ok w') : Inv w' := by
  cases op with
  | join id s => exact inv_addClient i h
  | leave id => exact inv_removeClient i h
  | edit c name s => exact inv_edit i (hn name rfl) h
  | scratch c name content =>
    have hn := hn name rfl
    exact inv_edit (inv_setBuffer i hn _ w.out) hn h
  | view c id => obtain ⟨r, hr, rfl⟩ := map_inv h; exact inv_view i hr
  | viewDelete c =>
    have h : w.deleteCurrentView env c = .ok w' := h
    unfold deleteCurrentView at h
    obtain ⟨ctx, hc, h⟩ := bind_inv h
    obtain ⟨r, hd, h⟩ := bind_inv h
    have i1 := inv_deleteView i hd (Assoc.at_inv hc) rfl
    dsimp only at h
    split at h
    · cases h; exact i1
    · cases h
  | viewAdd c b => obtain ⟨r, hr, rfl⟩ := map_inv h; exact inv_add i hr
  | viewRemove c b => obtain ⟨r, hr, rfl⟩ := map_inv h; exact inv_remove i hr
  | move c d e => exact inv_move i h
  | deleteSelection c => obtain ⟨r, hr, rfl⟩ := map_inv h; exact inv_deleteSelection i hr
  | append b x xs => exact inv_append i (hn b rfl) h
  | debug t => exact inv_debug i h
  | message c t => exact inv_message i h
  | error c t1 t2 => exact inv_error i h
  | notify c n => cases h; exact inv_out i _

theorem inv_history {ok : World → CoreOp → Prop} (hok : ∀ w op, ok w op → CleanName w op) (h : CoreHistory ok w) :
    Inv w := by
  induction h with
  | start h => exact inv_start h
  | step _ ho _ h ih => exact inv_op ih (hok _ _ ho) h

theorem inv_live (i : Inv w) : LiveViews w := by
  intro c ctx hc
  have hv := i.clients c ctx hc
  obtain ⟨_, _, hne, hb⟩ := i.views _ _ hv
  refine ⟨hv, ?_, fun b hm => Assoc.has_iff.1 (hb b hm)⟩
  intro e
  unfold View.buffers at e
  exact hne (List.map_eq_nil_iff.1 e)

end World
end Ced

import Verif.Proofs.Core

/-! # What closing a view does, and the invariant of the core -/

namespace Ced
open Spec

namespace World
variable {env : Env} {w w' : World}

/-- some registered view shows the buffer -/
def Shown (w : World) (n : Str) : Prop := ∃ kv ∈ w.views.map, n ∈ kv.2.buffers

theorem shown_any (w : World) (n : Str) :
    (w.views.map.any fun kv => kv.2.buffers.any (· = n)) = true ↔ w.Shown n := by
  simp [Shown]

theorem logged_debug (hm : w.debugMode = true) {text : Str} (h : w.debug env text = .ok w') :
    ∃ o, w' = { w with
      buffers := w.buffers.set BUFFER_DEBUG (appended (w.buffers.get BUFFER_DEBUG) BUFFER_DEBUG (Str.encode (text ++ ['\n']))),
      out := o } := by
  unfold debug at h
  rw [if_pos hm] at h
  exact appendTo_ok h

/-- logging needs everything shown together with the debug buffer -/
theorem debug_needs (hm : w.debugMode = true) {text : Str} (h : w.debug env text = .ok w') {c : Nat}
    {ctx : ClientContext} (hn : (Assoc.keys w.clients.map).Nodup) (hc : w.clients.map.get c = some ctx) (hwf : View.WF ctx.view)
    (hd : BUFFER_DEBUG ∈ ctx.view.buffers) : ∀ b ∈ ctx.view.buffers, b = BUFFER_DEBUG ∨ w.buffers.has b = true := by
  unfold debug at h
  rw [if_pos hm] at h
  unfold appendTo at h
  have key : ∀ (w1 : World), w1.clients = w.clients → w1.buffers.has BUFFER_DEBUG = true →
      (∀ n, w1.buffers.has n = true → n = BUFFER_DEBUG ∨ w.buffers.has n = true) →
      w1.notifyViewUpdate env (w1.clientsWithBuffer BUFFER_DEBUG) = .ok w' →
      ∀ b ∈ ctx.view.buffers, b = BUFFER_DEBUG ∨ w.buffers.has b = true := by
    intro w1 e1 e2 e3 h b hb
    obtain ⟨p, hp, _⟩ := notify_ok h
    have hm : c ∈ w1.clientsWithBuffer BUFFER_DEBUG := by
      unfold clientsWithBuffer
      rw [if_neg (by unfold bufferExists; rw [e2]; simp), e1, List.mem_filterMap]
      exact ⟨(c, ctx), Assoc.get_mem hc, by simp [(View.contains_iff _).2 hd]⟩
    obtain ⟨y, hy⟩ := mapM_inv hp c hm
    obtain ⟨_, ctx', hc', hr⟩ := viewParams_inv hy
    rw [e1, hc] at hc'
    cases hc'
    exact e3 b (render_needs hwf hr b hb)
  dsimp only at h
  have has : ∀ x : Buffer, Assoc.has (Assoc.set w.buffers BUFFER_DEBUG x) BUFFER_DEBUG = true := by
    intro x; rw [Assoc.has_set]; simp
  have old : ∀ (x : Buffer) n, Assoc.has (Assoc.set w.buffers BUFFER_DEBUG x) n = true →
      n = BUFFER_DEBUG ∨ w.buffers.has n = true := by
    intro x n hn; rw [Assoc.has_set] at hn; simpa using hn
  cases hg : w.buffers.get BUFFER_DEBUG with
  | none => rw [hg] at h; exact key (w.openScratch BUFFER_DEBUG _) rfl (has _) (old _) h
  | some b => rw [hg] at h; exact key { w with buffers := w.buffers.set BUFFER_DEBUG _ } rfl (has _) (old _) h

/-- dropping some buffers: those no view shows disappear (the debug buffer comes back at once) -/
structure Dropped (bs : List Str) (w w' : World) : Prop where
  cwd : w'.cwd = w.cwd
  clients : w'.clients = w.clients
  views : w'.views = w.views
  mode : w'.debugMode = w.debugMode
  kept : ∀ n, n ≠ BUFFER_DEBUG → (n ∉ bs ∨ w.Shown n) → w'.buffers.get n = w.buffers.get n
  gone : ∀ n, n ≠ BUFFER_DEBUG → n ∈ bs → ¬ w.Shown n → w'.buffers.get n = none
  log : w.buffers.has BUFFER_DEBUG = true → w'.buffers.has BUFFER_DEBUG = true

theorem dropBuffer_ok (hm : w.debugMode = true) {b : Str} (h : dropBuffer env w b = .ok w') : Dropped [b] w w' := by
  unfold dropBuffer at h
  split at h
  · rename_i hs
    cases h
    have hs := (shown_any w b).1 hs
    refine ⟨rfl, rfl, rfl, rfl, fun _ _ _ => rfl, ?_, id⟩
    intro n _ hn hns
    rw [List.mem_singleton] at hn; subst hn
    exact absurd hs hns
  · rename_i hs
    have hs : ¬ w.Shown b := fun hh => hs ((shown_any w b).2 hh)
    have l := debug_ok h
    refine ⟨l.cwd, l.clients, l.views, l.mode, ?_, ?_, fun _ => l.exist hm⟩
    · intro n hn hor
      rw [l.others n hn]
      show Assoc.get (Assoc.del _ _) _ = _
      rw [Assoc.get_del, if_neg]
      rintro rfl
      rcases hor with h1 | h1
      · exact h1 (by simp)
      · exact hs h1
    · intro n hn hb _
      rw [List.mem_singleton] at hb; subst hb
      rw [l.others n hn]
      exact Assoc.get_del_self _ _

theorem shown_congr {w w' : World} (h : w'.views = w.views) (n : Str) : w'.Shown n ↔ w.Shown n := by
  unfold Shown; rw [h]

theorem dropBuffers_ok (hm : w.debugMode = true) {bs : List Str} (h : bs.foldlM (dropBuffer env) w = .ok w') :
    Dropped bs w w' := by
  induction bs generalizing w with
  | nil => cases h; exact ⟨rfl, rfl, rfl, rfl, fun _ _ _ => rfl, fun _ _ h => absurd h (by simp), id⟩
  | cons b bs ih =>
    rw [List.foldlM_cons] at h
    obtain ⟨w1, h1, h⟩ := bind_inv h
    have d1 := dropBuffer_ok hm h1
    have d2 := ih (d1.mode.trans hm) h
    refine ⟨d2.cwd.trans d1.cwd, d2.clients.trans d1.clients, d2.views.trans d1.views, d2.mode.trans d1.mode, ?_, ?_,
      fun hh => d2.log (d1.log hh)⟩
    · intro n hn hor
      rw [d2.kept n hn, d1.kept n hn]
      · rcases hor with hh | hh
        · left; simp at hh ⊢; exact hh.1
        · exact Or.inr hh
      · rw [shown_congr d1.views]
        rcases hor with hh | hh
        · left; simp at hh ⊢; exact hh.2
        · exact Or.inr hh
    · intro n hn hb hns
      by_cases hbs : n ∈ bs
      · exact d2.gone n hn hbs (by rw [shown_congr d1.views]; exact hns)
      · rw [d2.kept n hn (Or.inl hbs)]
        have : n = b := by simpa [hbs] using hb
        exact d1.gone n hn (by simp [this]) hns

/-- the view shown when none remains (core.rs:380) -/
def lastResort : View := View.forBuffer BUFFER_SCRATCH

/-- a client while the view `id` is closed -/
def stripped (id : Str) (extra : Bool) (ctx : ClientContext) : ClientContext :=
  let ctx : ClientContext := { ctx with selections := ctx.selections.del id }
  if extra then addSelections lastResort ctx else ctx

/-- a client that falls back to `latest` if it shows the view `id` -/
def relocated (id : Str) (latest : View) (ctx : ClientContext) : ClientContext :=
  if ctx.view.key = id then { ctx with view := latest } else ctx

theorem stripped_view (id : Str) (extra : Bool) (ctx : ClientContext) : (stripped id extra ctx).view = ctx.view := by
  cases extra <;> rfl

/-- the clients after the view `id` is closed, `latest` being the view they fall back to -/
def afterClose (id : Str) (extra : Bool) (latest : View) (ctx : ClientContext) : ClientContext :=
  relocated id latest (stripped id extra ctx)

/-- what closing a view does -/
structure Closed (id : Str) (v : View) (w w' : World) : Prop where
  cwd : w'.cwd = w.cwd
  mode : w'.debugMode = w.debugMode
  stack : w'.clients.stack = w.clients.stack
  map : w'.views.map = if w.views.map.del id = [] then [(lastResort.key, lastResort)] else w.views.map.del id
  order : w.views.stack.Nodup → w.views.map.del id ≠ [] → w'.views.stack = w.views.stack.filter (· ≠ id)
  order' : w.views.map.del id = [] → w'.views.stack.head? = some lastResort.key
  order'' : w.views.stack.Nodup → w.views.map.del id = [] → (∀ k ∈ w.views.stack, k = id) → w'.views.stack = [lastResort.key]
  nodup' : w.views.stack.Nodup → w.views.map.del id = [] → w'.views.stack.Nodup
  latest : ∃ latest, w'.views.latestValue = some latest ∧
    w'.clients.map = w.clients.map.mapVals fun _ => afterClose id (w.views.map.del id).isEmpty latest
  kept : ∀ n, n ≠ BUFFER_DEBUG → (n ∉ v.buffers ∨ ∃ kv ∈ w.views.map.del id, n ∈ kv.2.buffers) →
    w'.buffers.get n = w.buffers.get n
  gone : ∀ n, n ≠ BUFFER_DEBUG → n ∈ v.buffers → (¬ ∃ kv ∈ w.views.map.del id, n ∈ kv.2.buffers) →
    w'.buffers.get n = none
  log : w'.buffers.has BUFFER_DEBUG = true
  needs : ∀ c ctx, w.clients.map.get c = some ctx → ctx.view.key = id → ∀ v, w'.views.latestValue = some v → View.WF v →
    ∀ b ∈ v.buffers, w'.buffers.has b = true

theorem mapVals_comp {K V W X : Type} (m : Assoc K V) (f : K → V → W) (g : K → W → X) :
    (m.mapVals f).mapVals g = m.mapVals fun k v => g k (f k v) := by
  simp [Assoc.mapVals, Function.comp_def]

theorem deleteView_ok (hm : w.debugMode = true) {id : Str} {e : Option CoreError}
    (hnv : (Assoc.keys w.clients.map).Nodup) (h : w.deleteView env id = .ok (w', e)) :
    (w.views.map.get id = none ∧ e = some (.viewNotFound id) ∧ w' = w) ∨
    (∃ v, w.views.map.get id = some v ∧ id ∈ w.views.stack ∧ e = none ∧ Closed id v w w') := by
  unfold deleteView at h
  split at h
  · rename_i hx
    cases h
    exact Or.inl ⟨Assoc.has_false.1 hx, rfl, rfl⟩
  right
  rename_i hx
  obtain ⟨v, hv, h⟩ := bind_inv h
  obtain ⟨hst, hg, hmap, hord⟩ := StackMap.remove_some (unwrap_inv hv)
  obtain ⟨w1, h1, h⟩ := bind_inv h
  have l := debug_ok h1
  obtain ⟨w2, h2, h⟩ := bind_inv h
  have hm1 : w1.debugMode = true := l.mode.trans hm
  have d := dropBuffers_ok (by exact hm1) h2
  have hvw2 : w2.views = (w.views.remove id).1 := d.views.trans l.views
  have hlog : w2.buffers.has BUFFER_DEBUG = true := d.log (l.exist hm)
  have hne : w2.buffers.isEmpty = false := by
    cases hb : w2.buffers with
    | nil => rw [hb] at hlog; cases hlog
    | cons _ _ => rfl
  have hcl2 : w2.clients = { w.clients with map := w.clients.map.mapVals fun _ ctx => { ctx with selections := ctx.selections.del id } } := by
    rw [d.clients]
    show ({ w1.clients with map := _ } : StackMap Nat ClientContext) = _
    rw [l.clients]
  have hsh : ∀ n, (w1.mapClients fun _ ctx => { ctx with selections := ctx.selections.del id }).Shown n ↔
      ∃ kv ∈ w.views.map.del id, n ∈ kv.2.buffers := by
    intro n
    unfold Shown
    show (∃ kv ∈ w1.views.map, _) ↔ _
    rw [l.views]
    show (∃ kv ∈ (w.views.remove id).1.map, _) ↔ _
    rw [hmap]
  have hkept : ∀ n, n ≠ BUFFER_DEBUG → (n ∉ v.buffers ∨ ∃ kv ∈ w.views.map.del id, n ∈ kv.2.buffers) →
      w2.buffers.get n = w.buffers.get n := by
    intro n hn hor
    rw [d.kept n hn (by rw [hsh]; exact hor)]
    exact l.others n hn
  have hgone : ∀ n, n ≠ BUFFER_DEBUG → n ∈ v.buffers → (¬ ∃ kv ∈ w.views.map.del id, n ∈ kv.2.buffers) →
      w2.buffers.get n = none := by
    intro n hn hb hs
    exact d.gone n hn hb (by rw [hsh]; exact hs)
  obtain ⟨w3, h3, h⟩ := bind_inv h
  have hnd2 : w.views.stack.Nodup → w2.views.stack.Nodup := by
    intro hn; rw [hvw2, hord hn]; exact hn.filter _
  have e3 : ∃ st, (w.views.stack.Nodup → w.views.map.del id = [] → (∀ k ∈ w.views.stack, k = id) → st = []) ∧ (w.views.stack.Nodup → (lastResort.key :: st).Nodup) ∧ w3 = { w2 with
      views := if w.views.map.del id = [] then { stack := lastResort.key :: st, map := [(lastResort.key, lastResort)] } else (w.views.remove id).1,
      clients := { w.clients with map := w.clients.map.mapVals fun _ ctx => stripped id (w.views.map.del id).isEmpty ctx } } := by
    unfold ensureView at h3
    rw [hvw2, hmap, hne] at h3
    cases hd : w.views.map.del id with
    | nil =>
      rw [hd] at h3
      obtain ⟨st, e, hst⟩ := addView_ok w2 (View.forBuffer BUFFER_SCRATCH)
      have h3' : w2.addView (View.forBuffer BUFFER_SCRATCH) = .ok w3 := h3
      rw [e] at h3'
      cases h3'
      refine ⟨st, ?_, fun hn => ?_, ?_⟩
      · intro hn _ hall
        rw [hst (hnd2 hn), hvw2, hord hn, List.filter_filter, List.filter_eq_nil_iff]
        intro k hk; simp [hall k hk]
      · rw [hst (hnd2 hn), List.nodup_cons]
        exact ⟨by simp [lastResort], (hnd2 hn).filter _⟩
      rw [hcl2, mapVals_comp, hvw2, hmap, hd]
      rfl
    | cons x xs =>
      rw [hd] at h3
      have h3' : (Except.ok w2 : R World) = .ok w3 := h3
      cases h3'
      refine ⟨[], fun _ _ _ => rfl, fun _ => by simp, ?_⟩
      rw [if_neg (by simp)]
      have key : ∀ (w2 : World) V C, w2.views = V → w2.clients = C → w2 = { w2 with views := V, clients := C } := by
        intro w2 V C h1 h2; rw [← h1, ← h2]
      exact key w2 _ _ hvw2 hcl2
  obtain ⟨st, hst0, hst3, e3⟩ := e3
  obtain ⟨latest, hl, h⟩ := bind_inv h
  obtain ⟨w4, h4, h⟩ := bind_inv h
  cases h
  obtain ⟨params, hp, rfl⟩ := notify_ok h4
  refine ⟨v, hg, hst, rfl, ?_⟩
  have hl := unwrap_inv hl
  refine ⟨?_, ?_, ?_, ?_, ?_, ?_, ?_, ?_, ⟨latest, hl, ?_⟩, ?_, ?_, ?_, ?_⟩
  · subst e3; exact d.cwd.trans l.cwd
  · subst e3; exact d.mode.trans l.mode
  · subst e3; rfl
  · subst e3
    show (if _ then _ else _ : StackMap Str View).map = _
    split
    · rfl
    · exact hmap
  · intro hn hd
    subst e3
    show (if _ then _ else _ : StackMap Str View).stack = _
    rw [if_neg hd]
    exact hord hn
  · intro hd
    subst e3
    show (if _ then _ else _ : StackMap Str View).stack.head? = _
    rw [if_pos hd]; rfl
  · intro hn hd hall
    subst e3
    show (if _ then _ else _ : StackMap Str View).stack = _
    rw [if_pos hd, hst0 hn hd hall]
  · intro hn hd
    subst e3
    show (if _ then _ else _ : StackMap Str View).stack.Nodup
    rw [if_pos hd]; exact hst3 hn
  · subst e3
    show Assoc.mapVals (w.clients.map.mapVals fun _ ctx => stripped id (w.views.map.del id).isEmpty ctx)
      (fun _ => relocated id latest) = _
    rw [mapVals_comp]
    rfl
  · subst e3; exact hkept
  · subst e3; exact hgone
  · subst e3; exact hlog
  · intro c ctx hc hk v' hv' hwf b hb
    have hv' : w3.views.latestValue = some v' := hv'
    rw [hl] at hv'
    cases hv'
    have hmem : c ∈ w3.clients.map.filterMap fun c => if c.2.view.key = id then some c.1 else none := by
      subst e3
      rw [List.mem_filterMap]
      refine ⟨(c, stripped id (w.views.map.del id).isEmpty ctx), ?_, ?_⟩
      · apply Assoc.get_mem
        rw [Assoc.get_mapVals, hc]; rfl
      · simp [stripped_view, hk]
    obtain ⟨y, hy⟩ := mapM_inv hp c hmem
    obtain ⟨_, ctx', hc', hr⟩ := viewParams_inv hy
    have hvw : ctx'.view = latest := by
      subst e3
      have hc' : Assoc.get (Assoc.mapVals (w.clients.map.mapVals fun _ ctx => stripped id (w.views.map.del id).isEmpty ctx)
        (fun _ => relocated id latest)) c = some ctx' := hc'
      rw [mapVals_comp, Assoc.get_mapVals, hc] at hc'
      rw [← Option.some.inj hc']
      simp [relocated, stripped_view, hk]
    rw [hvw] at hr
    exact render_needs hwf hr b hb

end World
end Ced

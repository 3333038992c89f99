import Verif.Props.View
import Verif.Proofs.CoreText

/-! # Properties of the editor: views and clients (C28-C31) -/

namespace Ced.Props
open Ced Ced.Spec

/-! ## Concrete sessions, for the examples -/

/-- two files, `f` holding `12345` and `g` holding two lines -/
def envA : Env where
  seg := bytewise
  fs := fun p =>
    if p = [['f']] then some ⟨[49, 50, 51, 52, 53, 10], 1⟩
    else if p = [['g']] then some ⟨[97, 10, 98, 10], 1⟩ else none
  now := 3
  stale := fun _ => H
  resolve := fun cwd n => cwd ++ [n]

/-- perform operations from the start -/
def session (ops : List CoreOp) : R World := do
  let w ← World.start envA [] [] []
  ops.foldlM (fun w op => op.run envA w) w

def cleanB (op : CoreOp) : Bool := match op.creates with
  | some n => !n.contains '{'
  | none => true

theorem cleanB_ok {w : World} {op : CoreOp} (h : cleanB op = true) : CleanName w op := by
  intro n hn
  unfold cleanB at h
  rw [hn] at h
  simpa using h

def ordinaryB (w : World) (op : CoreOp) : Bool :=
  cleanB op && (match op with
  | .view _ id => w.views.map.has id || !w.buffers.has id
  | .join _ _ => !w.clients.stack.isEmpty || decide (w.views.map.length = 1)
  | _ => true)

theorem ordinaryB_ok {w : World} {op : CoreOp} (h : ordinaryB w op = true) : Ordinary w op := by
  unfold ordinaryB at h
  rw [Bool.and_eq_true] at h
  refine ⟨cleanB_ok h.1, ?_, ?_⟩
  · rintro c id rfl
    simpa using h.2
  · rintro id s rfl hs
    simpa [hs] using h.2

/-- perform operations from the start, checking that they are allowed -/
def checked (okB : World → CoreOp → Bool) (ops : List CoreOp) : R World := do
  let w ← World.start envA [] [] []
  ops.foldlM (fun w op => if okB w op then op.run envA w else .error .unwrap) w

theorem checked_history {ok : World → CoreOp → Prop} {okB : World → CoreOp → Bool} (hok : ∀ w op, okB w op = true → ok w op)
    {ops : List CoreOp} {w : World} (h : checked okB ops = .ok w) : CoreHistory ok w := by
  unfold checked at h
  obtain ⟨w0, h0, h⟩ := bind_inv h
  refine foldlM_ind (P := CoreHistory ok) h (.start h0) ?_
  intro op _ a a' ha hs
  split at hs
  · rename_i hb
    exact .step ha (hok _ _ hb) (fun _ => rfl) hs
  · cases hs

theorem ordinary_clean : ∀ w op, Ordinary w op → CleanName w op := fun _ _ h => h.1

/-- the state at the end, if the operations complete -/
def final (r : R World) : World := match r with
  | .ok w => w
  | .error _ => World.new []

theorem final_ok {r : R World} (h : r.toOption.isSome = true) : r = .ok (final r) := by
  cases r with
  | error e => cases h
  | ok w => rfl

/-! ## C28 -/

/-- C28: after any completed history the view of each client is registered, shows something, and all the buffers it
shows exist; there is at least one view. -/
theorem C28_live {w : World} (h : CoreHistory CleanName w) : LiveViews w ∧ w.views.map ≠ [] := by
  have i := World.inv_history (fun _ _ h => h) h
  refine ⟨World.inv_live i, ?_⟩
  intro e
  obtain ⟨v, hv⟩ := i.top
  unfold StackMap.latestValue at hv
  rw [e] at hv
  cases hh : w.views.stack.head? <;> rw [hh] at hv <;> cases hv

/-- C28: each client has one selection in each buffer of its view, if views are not selected by the name of a buffer
and clients do not join an abandoned editor that has several views. -/
theorem C28_selections {w : World} (h : CoreHistory Ordinary w) : HasSelections w :=
  World.sel_has (World.inv_history ordinary_clean h) (World.sel_history h)

def opsA : List CoreOp :=
  [.join 1 [], .edit 1 ['f'] false, .join 2 [], .edit 2 ['g'] false, .viewAdd 2 ['f'], .move 2 .right false,
   .viewDelete 2, .scratch 2 ['s'] [97, 98, 10], .viewAdd 1 ['g']]

theorem opsA_ordinary : CoreHistory Ordinary (final (checked ordinaryB opsA)) :=
  checked_history (fun _ _ => ordinaryB_ok) (final_ok (by decide +kernel))

example : (final (checked ordinaryB (opsA.take 8))).clients.map.map (fun c => (c.1, c.2.view.key)) =
    [(1, str!"f{*}"), (2, str!"s{*}")] := by decide +kernel
example : LiveViews (final (checked ordinaryB opsA)) :=
  (C28_live (checked_history (fun _ _ h => (ordinaryB_ok h).1) (final_ok (by decide +kernel)))).1
example : HasSelections (final (checked ordinaryB opsA)) := C28_selections opsA_ordinary

def opsB : List CoreOp :=
  [.join 1 [], .edit 1 ['f'] false, .leave 1, .join 2 [], .view 2 str!"*debug*{*}|*scratch*{*}"]

/-- C28: the exception for clients that join is real: a client that joins an abandoned editor and selects another
registered view has no selections in it, and its next motion crashes the server. -/
theorem C28_join_refuted : ∃ w, CoreHistory CleanName w ∧ ¬ HasSelections w ∧
    ∃ c, w.clients.map.has c = true ∧ ∀ env dir ext w', w.moveCursor env c dir ext ≠ .ok w' := by
  have none : ((final (checked (fun _ => cleanB) opsB)).clients.map.get 2).bind
      (fun ctx => ctx.selections.get ctx.view.key) = none := by decide +kernel
  have here : (final (checked (fun _ => cleanB) opsB)).clients.map.has 2 = true := by decide +kernel
  refine ⟨final (checked (fun _ => cleanB) opsB),
    checked_history (fun _ _ => cleanB_ok) (final_ok (by decide +kernel)), ?_, 2, here, ?_⟩
  · intro hs
    obtain ⟨ctx, hc⟩ := Assoc.has_iff.1 here
    obtain ⟨s, h1, _⟩ := hs 2 ctx hc
    rw [hc] at none
    have none : ctx.selections.get ctx.view.key = _ := none
    rw [none] at h1
    cases h1
  · intro env dir ext w' hm
    unfold World.moveCursor at hm
    obtain ⟨ctx, hc, hm⟩ := bind_inv hm
    obtain ⟨s, hs, hm⟩ := bind_inv hm
    have hc := Assoc.at_inv hc
    have hs := Assoc.at_inv hs
    rw [hc] at none
    have none : ctx.selections.get ctx.view.key = _ := none
    rw [none] at hs
    cases hs

/-! ## C29 -/

/-- A registered view other than `v` shows the buffer. -/
def ShownElsewhere (w : World) (v : View) (n : Str) : Prop :=
  ∃ k v', w.views.map.get k = some v' ∧ v' ≠ v ∧ n ∈ v'.buffers

/-- The view a client falls back to: the one of the most recently used identifier (see C25) other than that of `v`;
a view of the scratch buffer if there is no other. -/
def FallsBackTo (w : World) (v next : View) : Prop :=
  (∃ k, w.views.stack.find? (· ≠ v.key) = some k ∧ w.views.map.get k = some next) ∨
  ((∀ k v', w.views.map.get k = some v' → v' = v) ∧ next.buffers = [BUFFER_SCRATCH])

theorem key_eq_iff {w : World} (i : World.Inv w) {v v' : View} {k k' : Str} (h : w.views.map.get k = some v)
    (h' : w.views.map.get k' = some v') : v = v' ↔ k = k' := by
  have e := (i.views k v h).1
  have e' := (i.views k' v' h').1
  constructor
  · rintro rfl; rw [← e, ← e']
  · rintro rfl; rw [h] at h'; cases h'; rfl

theorem mem_del_iff {w : World} (i : World.Inv w) {v : View} {id n : Str} (h : w.views.map.get id = some v) :
    (∃ kv ∈ w.views.map.del id, n ∈ kv.2.buffers) ↔ ShownElsewhere w v n := by
  constructor
  · rintro ⟨⟨k, v'⟩, hm, hn⟩
    have hg := Assoc.mem_get (Assoc.nodup_del i.vnodup id) hm
    rw [Assoc.get_del] at hg
    split at hg
    · cases hg
    · rename_i hne
      refine ⟨k, v', hg, ?_, hn⟩
      rw [Ne, key_eq_iff i hg h]; exact hne
  · rintro ⟨k, v', hg, hne, hn⟩
    refine ⟨(k, v'), Assoc.get_mem ?_, hn⟩
    rw [Assoc.get_del, if_neg]
    · exact hg
    · rintro rfl; exact hne ((key_eq_iff i hg h).2 rfl)

/-- the closing of a view in terms of what clients see -/
theorem closed_spec {w w' : World} (i : World.Inv w) {id : Str} {v : View} (hv : w.views.map.get id = some v)
    (hd : World.Closed id v w w') :
    ∃ next, FallsBackTo w v next ∧
      (∀ d, w'.clients.map.has d = w.clients.map.has d) ∧
      (∀ d x, w.clients.map.get d = some x → ∃ x', w'.clients.map.get d = some x' ∧
        x'.view = if x.view = v then next else x.view) ∧
      (∀ k v', w.views.map.get k = some v' → v' ≠ v → w'.views.map.get k = some v') ∧
      w'.views.latestValue = some next ∧
      (∀ n, n ≠ BUFFER_DEBUG → (n ∉ v.buffers ∨ ShownElsewhere w v n) → w'.buffers.get n = w.buffers.get n) ∧
      (∀ n, n ≠ BUFFER_DEBUG → n ∈ v.buffers → ¬ ShownElsewhere w v n → w'.buffers.get n = none) ∧
      w'.buffers.has BUFFER_DEBUG = true := by
  obtain ⟨next, hl, hcl⟩ := hd.latest
  refine ⟨next, ?_, ?_, ?_, ?_, hl, ?_, ?_, hd.log⟩
  · unfold StackMap.latestValue at hl
    by_cases he : w.views.map.del id = []
    · right
      constructor
      · intro k v' hk
        refine (key_eq_iff i hk hv).2 ?_
        by_cases hki : k = id
        · exact hki
        · have := Assoc.get_del w.views.map id k
          rw [he, if_neg hki, hk] at this
          cases this
      · rw [hd.order' he, hd.map, if_pos he] at hl
        have hl : Assoc.get [(World.lastResort.key, World.lastResort)] World.lastResort.key = some next := hl
        simp only [Assoc.get, if_true] at hl
        cases hl; rfl
    · left
      rw [hd.order i.nodup he, hd.map, if_neg he] at hl
      rw [(i.views id v hv).1]
      rw [← List.head?_filter]
      cases hh : (w.views.stack.filter (· ≠ id)).head? with
      | none => rw [hh] at hl; cases hl
      | some k =>
        rw [hh] at hl
        have hl : Assoc.get (w.views.map.del id) k = some next := hl
        rw [Assoc.get_del] at hl
        split at hl
        · cases hl
        · exact ⟨k, rfl, hl⟩
  · intro d; rw [hcl, Assoc.has_mapVals]
  · intro d x hx
    refine ⟨_, by rw [hcl, Assoc.get_mapVals, hx]; rfl, ?_⟩
    have hiff := key_eq_iff i (i.clients d x hx) hv
    unfold World.afterClose World.relocated
    rw [World.stripped_view]
    by_cases hk : x.view.key = id
    · rw [if_pos hk, if_pos (hiff.2 hk)]
    · rw [if_neg hk, if_neg (fun e => hk (hiff.1 e)), World.stripped_view]
  · intro k v' hk hne
    have hki : k ≠ id := fun e => hne ((key_eq_iff i hk hv).2 e)
    have hdel := Assoc.get_del w.views.map id k
    rw [if_neg hki, hk] at hdel
    rw [hd.map, if_neg]
    · exact hdel
    · intro e; rw [e] at hdel; cases hdel
  · intro n hn hor
    exact hd.kept n hn (by rw [mem_del_iff i hv]; exact hor)
  · intro n hn hb hs
    exact hd.gone n hn hb (by rw [mem_del_iff i hv]; exact hs)

/-- C29: closing its view moves a client, and exactly the clients with the same view, to the most recent other view
(or a view of the scratch buffer when there is none); the other views stay; exactly the buffers no other view shows
are dropped, the debug buffer excepted, and the others are unchanged. -/
theorem C29_close {w w' : World} (h : CoreHistory CleanName w) {env : Env} {c : Nat} {ctx : ClientContext}
    (hc : w.clients.map.get c = some ctx) (hd : w.deleteCurrentView env c = .ok w') :
    ∃ next, FallsBackTo w ctx.view next ∧
      (∀ d, w'.clients.map.has d = w.clients.map.has d) ∧
      (∀ d x, w.clients.map.get d = some x → ∃ x', w'.clients.map.get d = some x' ∧
        x'.view = if x.view = ctx.view then next else x.view) ∧
      (∀ k v', w.views.map.get k = some v' → v' ≠ ctx.view → w'.views.map.get k = some v') ∧
      (∀ n, n ≠ BUFFER_DEBUG → (n ∉ ctx.view.buffers ∨ ShownElsewhere w ctx.view n) →
        w'.buffers.get n = w.buffers.get n) ∧
      (∀ n, n ≠ BUFFER_DEBUG → n ∈ ctx.view.buffers → ¬ ShownElsewhere w ctx.view n → w'.buffers.get n = none) ∧
      w'.buffers.has BUFFER_DEBUG = true := by
  have i := World.inv_history (fun _ _ h => h) h
  unfold World.deleteCurrentView at hd
  obtain ⟨ctx', hc', hd⟩ := bind_inv hd
  have hc' := Assoc.at_inv hc'
  rw [hc] at hc'
  cases hc'
  obtain ⟨⟨w1, e⟩, hdel, hd⟩ := bind_inv hd
  have hv := i.clients c ctx hc
  rcases World.deleteView_ok i.mode i.cnodup hdel with ⟨h1, _⟩ | ⟨v, hv', _, he, hcl⟩
  · rw [hv] at h1; cases h1
  · rw [hv] at hv'
    cases hv'
    subst he
    cases hd
    obtain ⟨next, h1, h2, h3, h4, _, h5, h6, h7⟩ := closed_spec i hv hcl
    exact ⟨next, h1, h2, h3, h4, h5, h6, h7⟩

/-- two clients on the view of `f`, then one adds `g`: the other follows; closing it drops both -/
example : (final (checked ordinaryB (opsA.take 3))).clients.map.map (fun c => (c.1, c.2.view.key)) =
      [(1, str!"f{*}"), (2, str!"f{*}")] ∧
    (final (checked ordinaryB (opsA.take 3 ++ [.viewDelete 2]))).clients.map.map (fun c => (c.1, c.2.view.key)) =
      [(1, str!"*debug*{*}|*scratch*{*}"), (2, str!"*debug*{*}|*scratch*{*}")] ∧
    (final (checked ordinaryB (opsA.take 3 ++ [.viewDelete 2]))).buffers.has ['f'] = false := by decide +kernel

/-! ## C30 -/

/-- C30 is false of the code: closing a view that shows the debug buffer together with a buffer no other view shows
never completes, in whatever state and environment. -/
theorem C30_debug_view_crashes {w : World} (h : CoreHistory CleanName w) {c : Nat} {ctx : ClientContext}
    (hc : w.clients.map.get c = some ctx) (hdbg : BUFFER_DEBUG ∈ ctx.view.buffers) {b : Str} (hb : b ∈ ctx.view.buffers)
    (hne : b ≠ BUFFER_DEBUG) (hs : ¬ ShownElsewhere w ctx.view b) :
    ∀ env w', w.deleteCurrentView env c ≠ .ok w' := by
  intro env w' hd
  have i := World.inv_history (fun _ _ h => h) h
  have hv := i.clients c ctx hc
  obtain ⟨_, hwf, _, _⟩ := i.views _ _ hv
  unfold World.deleteCurrentView at hd
  obtain ⟨ctx', hc', hd⟩ := bind_inv hd
  have hc' := Assoc.at_inv hc'
  rw [hc] at hc'
  cases hc'
  obtain ⟨⟨w0, e⟩, hdel, hd⟩ := bind_inv hd
  clear hd
  unfold World.deleteView at hdel
  split at hdel
  · rename_i hx
    have := Assoc.has_false.1 hx
    rw [hv] at this; cases this
  obtain ⟨v, hrem, hdel⟩ := bind_inv hdel
  obtain ⟨hst, hg, hmap, hord⟩ := StackMap.remove_some (unwrap_inv hrem)
  rw [hv] at hg
  cases hg
  obtain ⟨w1, h1, hdel⟩ := bind_inv hdel
  have l := World.debug_ok h1
  obtain ⟨w2, h2, hdel⟩ := bind_inv hdel
  clear hdel
  -- along the loop the clients keep their view, and the views do not change
  have inv := foldlM_at (P := fun a : World => a.debugMode = true ∧ (Assoc.keys a.clients.map).Nodup ∧
      (∃ x, a.clients.map.get c = some x ∧ x.view = ctx.view) ∧ a.views.map = w.views.map.del ctx.view.key) h2
    ⟨l.mode.trans i.mode, by
        show (Assoc.keys (w1.clients.map.mapVals fun _ (x : ClientContext) =>
          { x with selections := x.selections.del ctx.view.key })).Nodup
        rw [Assoc.keys_mapVals, l.clients]; exact i.cnodup,
      ⟨{ ctx with selections := ctx.selections.del ctx.view.key }, by
        show Assoc.get (w1.clients.map.mapVals fun _ (x : ClientContext) =>
          { x with selections := x.selections.del ctx.view.key }) c = _
        rw [Assoc.get_mapVals, l.clients]
        show (Assoc.get w.clients.map c).map _ = _
        rw [hc]; rfl, rfl⟩,
      by show w1.views.map = _; rw [l.views]; exact hmap⟩
    (by
      rintro x _ a a' ⟨p1, p2, ⟨y, p3, p4⟩, p5⟩ ha
      have d := World.dropBuffer_ok p1 ha
      exact ⟨d.mode.trans p1, by rw [d.clients]; exact p2, ⟨y, by rw [d.clients]; exact p3, p4⟩, by rw [d.views]; exact p5⟩)
  obtain ⟨a, a', ⟨p1, p2, ⟨y, p3, p4⟩, p5⟩, ha⟩ := inv b hb
  unfold World.dropBuffer at ha
  split at ha
  · rename_i hshown
    obtain ⟨kv, hm, hn⟩ := (World.shown_any a b).1 hshown
    rw [p5] at hm
    exact hs ((mem_del_iff i hv).1 ⟨kv, hm, hn⟩)
  · have := World.debug_needs (w := { a with buffers := a.buffers.del b }) p1 ha p2 p3 (by rw [p4]; exact hwf)
      (by rw [p4]; exact hdbg) b (by rw [p4]; exact hb)
    rcases this with e | e
    · exact hne e
    · have e : Assoc.has (a.buffers.del b) b = true := e
      rw [Assoc.has_del] at e
      simp at e

/-- C30: in particular, the first client of a new editor crashes it by closing its view. -/
theorem C30_initial_crashes {env : Env} {cwd : Path} {args cwdText session : Str} {w0 w : World}
    (h0 : World.start env cwd args cwdText = .ok w0) {id : Nat} (hf : ∀ i, (env.stale i).follows = true)
    (hj : w0.addClient env id session = .ok w) : ∀ env' w', w.deleteCurrentView env' id ≠ .ok w' := by
  have hh0 : CoreHistory CleanName w0 := .start h0
  have hh : CoreHistory CleanName w := .step (op := .join id session) hh0 (by intro n hn; cases hn) hf hj
  have key : ∃ ctx, w.clients.map.get id = some ctx ∧ ctx.view.buffers = [BUFFER_DEBUG, BUFFER_SCRATCH] ∧
      ∀ k v, w.views.map.get k = some v → v = ctx.view := by
    unfold World.start at h0
    obtain ⟨w1, h1, h0⟩ := bind_inv h0
    obtain ⟨w2, h2, h0⟩ := bind_inv h0
    have hcl : w2.clients = StackMap.new := (World.debug_ok h2).clients.trans (World.debug_ok h1).clients
    have hvw : w2.views = StackMap.new := (World.debug_ok h2).views.trans (World.debug_ok h1).views
    obtain ⟨st, e, _⟩ := World.addView_ok (w2.openScratch BUFFER_SCRATCH [])
      ((View.addLens [] BUFFER_DEBUG .whole).addLens BUFFER_SCRATCH .whole)
    have h0 : (w2.openScratch BUFFER_SCRATCH []).addView
      ((View.addLens [] BUFFER_DEBUG .whole).addLens BUFFER_SCRATCH .whole) = .ok w0 := h0
    rw [e] at h0
    have hvm : w0.views.map = [(((View.addLens [] BUFFER_DEBUG .whole).addLens BUFFER_SCRATCH .whole).key,
        (View.addLens [] BUFFER_DEBUG .whole).addLens BUFFER_SCRATCH .whole)] := by
      cases h0
      show Assoc.set w2.views.map _ _ = _
      rw [hvw]; rfl
    have hvs : w0.views.stack.head? = some ((View.addLens [] BUFFER_DEBUG .whole).addLens BUFFER_SCRATCH .whole).key := by
      cases h0; rfl
    have hcs : w0.clients.stack = [] := by
      cases h0
      show w2.clients.stack = []
      rw [hcl]; rfl
    unfold World.addClient at hj
    obtain ⟨context, hctx, hj⟩ := bind_inv hj
    obtain ⟨r, hins, hj⟩ := bind_inv hj
    obtain ⟨w3, hd, hj⟩ := bind_inv hj
    cases hj
    have l := World.debug_ok hd
    unfold World.joinContext StackMap.latest at hctx
    rw [hcs] at hctx
    obtain ⟨v, hv, hctx⟩ := bind_inv hctx
    cases hctx
    have hv := unwrap_inv hv
    unfold StackMap.latestValue at hv
    rw [hvs, hvm] at hv
    have hv : Assoc.get [(((View.addLens [] BUFFER_DEBUG .whole).addLens BUFFER_SCRATCH .whole).key,
        (View.addLens [] BUFFER_DEBUG .whole).addLens BUFFER_SCRATCH .whole)]
        ((View.addLens [] BUFFER_DEBUG .whole).addLens BUFFER_SCRATCH .whole).key = some v := hv
    simp only [Assoc.get, if_true] at hv
    cases hv
    obtain ⟨st', e', _⟩ := StackMap.insert_ok w0.clients id
      { view := (View.addLens [] BUFFER_DEBUG .whole).addLens BUFFER_SCRATCH .whole,
        selections := [(((View.addLens [] BUFFER_DEBUG .whole).addLens BUFFER_SCRATCH .whole).key,
          World.freshSelections ((View.addLens [] BUFFER_DEBUG .whole).addLens BUFFER_SCRATCH .whole))] }
    rw [e'] at hins
    cases hins
    refine ⟨{ view := (View.addLens [] BUFFER_DEBUG .whole).addLens BUFFER_SCRATCH .whole
              selections := [(((View.addLens [] BUFFER_DEBUG .whole).addLens BUFFER_SCRATCH .whole).key,
          World.freshSelections ((View.addLens [] BUFFER_DEBUG .whole).addLens BUFFER_SCRATCH .whole))] }, ?_, rfl, ?_⟩
    · show Assoc.get w3.clients.map id = _
      rw [l.clients]
      exact Assoc.get_set_self _ _ _
    · intro k v hk
      have hk : Assoc.get w3.views.map k = some v := hk
      rw [l.views] at hk
      have hk : Assoc.get w0.views.map k = some v := hk
      rw [hvm] at hk
      simp only [Assoc.get] at hk
      split at hk
      · cases hk; rfl
      · cases hk
  obtain ⟨ctx, hc, hbs, hall⟩ := key
  refine C30_debug_view_crashes hh hc (by rw [hbs]; simp) (b := BUFFER_SCRATCH) (by rw [hbs]; simp) (by decide) ?_
  rintro ⟨k, v', hk, hne, _⟩
  exact hne (hall k v' hk)

/-- C30: closing the only view completes only if there is a scratch buffer the view does not show: otherwise the
client would fall back to a view of a buffer that does not exist. -/
theorem C30_last_view {w w' : World} (h : CoreHistory CleanName w) {env : Env} {c : Nat} {ctx : ClientContext}
    (hc : w.clients.map.get c = some ctx) (hall : ∀ k v, w.views.map.get k = some v → v = ctx.view)
    (hd : w.deleteCurrentView env c = .ok w') :
    w.buffers.has BUFFER_SCRATCH = true ∧ BUFFER_SCRATCH ∉ ctx.view.buffers := by
  have i := World.inv_history (fun _ _ h => h) h
  have hh' : CoreHistory CleanName w → Spec.LiveViews w' := by
    intro _
    exact World.inv_live (World.inv_op i (op := .viewDelete c) (by intro n hn; cases hn) hd)
  obtain ⟨next, hfb, _, hcl, _, hk, hg, _⟩ := C29_close h hc hd
  obtain ⟨x', hx', hview⟩ := hcl c ctx hc
  rw [if_pos rfl] at hview
  have hnext : next.buffers = [BUFFER_SCRATCH] := by
    rcases hfb with ⟨k, hf, hg⟩ | ⟨_, e⟩
    · have := hall k next hg
      subst this
      have h1 := (i.views k _ hg).1
      have h2 := List.find?_some hf
      rw [h1] at h2
      simp at h2
    · exact e
  obtain ⟨_, _, hex⟩ := hh' h c x' hx'
  rw [hview, hnext] at hex
  obtain ⟨buf, hbuf⟩ := hex BUFFER_SCRATCH (by simp)
  have hsd : BUFFER_SCRATCH ≠ BUFFER_DEBUG := by decide
  have hse : ¬ ShownElsewhere w ctx.view BUFFER_SCRATCH := by
    rintro ⟨k, v', hk, hne, _⟩
    exact hne (hall k v' hk)
  by_cases hm : BUFFER_SCRATCH ∈ ctx.view.buffers
  · rw [hg _ hsd hm hse] at hbuf; cases hbuf
  · refine ⟨?_, hm⟩
    rw [hk _ hsd (Or.inl hm)] at hbuf
    exact Assoc.has_iff.2 ⟨_, hbuf⟩

/-- the two crashes, in a session -/
example : session [.join 1 [], .viewDelete 1] = .error .index ∧
    session [.join 1 [], .edit 1 ['f'] false, .view 1 str!"*debug*{*}|*scratch*{*}", .viewRemove 1 BUFFER_DEBUG,
      .viewDelete 1, .viewDelete 1] = .error .index := by decide +kernel

/-! ## C31 -/

/-- C31: selecting a view by its identifier shows it to the client, and changes nothing else. -/
theorem C31_by_identifier {w w' : World} {env : Env} {c : Nat} {id : Str} {v : View} (hv : w.views.map.get id = some v)
    {e : Option CoreError} (h : w.view env c id = .ok (w', e)) :
    e = none ∧ w'.buffers = w.buffers ∧ w'.views = w.views ∧
    (∃ x x', w.clients.map.get c = some x ∧ w'.clients.map.get c = some x' ∧ x'.view = v ∧ x'.selections = x.selections) ∧
    ∀ d, d ≠ c → w'.clients.map.get d = w.clients.map.get d := by
  unfold World.view at h
  rw [if_pos (show w.viewExists id = true from Assoc.has_iff.2 ⟨v, hv⟩)] at h
  obtain ⟨v', hv', h⟩ := bind_inv h
  have hv' := Assoc.at_inv hv'
  rw [hv] at hv'
  cases hv'
  obtain ⟨ctx, hc, h⟩ := bind_inv h
  obtain ⟨w1, hn, h⟩ := bind_inv h
  cases h
  obtain ⟨p, _, rfl⟩ := World.notify_ok hn
  refine ⟨rfl, rfl, rfl, ⟨ctx, { ctx with view := v }, unwrap_inv hc, Assoc.get_set_self _ _ _, rfl, rfl⟩, ?_⟩
  intro d hd
  exact Assoc.get_set_ne _ hd

/-- C31: an unknown name is refused and changes nothing. -/
theorem C31_unknown {w : World} {env : Env} {c : Nat} {id : Str} (hv : w.views.map.get id = none)
    (hb : w.buffers.get id = none) : w.view env c id = .ok (w, some (.viewNotFound id)) := by
  unfold World.view World.viewExists World.bufferExists
  rw [Assoc.has_false.2 hv, Assoc.has_false.2 hb]
  rfl

/-- C31 is false of the code: a client that selects a buffer by name, when no view of that buffer alone exists, sees it,
but then moving, deleting the selection, running a script command that asks for the context, and closing the view all crash. -/
theorem C31_by_buffer_crashes {w w' : World} (h : CoreHistory CleanName w) {env : Env} {c : Nat} {b : Str}
    (hb : w.buffers.has b = true) (hk1 : w.views.map.get b = none) (hk2 : w.views.map.get (View.forBuffer b).key = none)
    {e : Option CoreError} (hv : w.view env c b = .ok (w', e)) :
    e = none ∧ (∃ x, w'.clients.map.get c = some x ∧ x.view.buffers = [b]) ∧
    ∀ env', (∀ dir ext w'', w'.moveCursor env' c dir ext ≠ .ok w'') ∧
      (∀ r, w'.deleteSelection env' c ≠ .ok r) ∧ (∀ r, w'.getContext env' c ≠ .ok r) ∧
      (∀ w'', w'.deleteCurrentView env' c ≠ .ok w'') := by
  have i := World.inv_history (fun _ _ h => h) h
  have t := World.tidy_history (fun _ _ h => h) h
  unfold World.view World.viewExists World.bufferExists at hv
  rw [Assoc.has_false.2 hk1, hb] at hv
  obtain ⟨ctx, hc, hv⟩ := bind_inv hv
  obtain ⟨w1, hn, hv⟩ := bind_inv hv
  cases hv
  obtain ⟨p, _, rfl⟩ := World.notify_ok hn
  have hc := unwrap_inv hc
  have hget : Assoc.get (w.clients.map.set c { ctx with view := View.forBuffer b }) c =
      some { ctx with view := View.forBuffer b } := Assoc.get_set_self _ _ _
  have hsel : ctx.selections.get (View.forBuffer b).key = none := by
    cases hs : ctx.selections.get (View.forBuffer b).key with
    | none => rfl
    | some s =>
      have := t.sel c ctx _ hc (Assoc.has_iff.2 ⟨s, hs⟩) (by simp)
      rw [Assoc.has_false.2 hk2] at this; cases this
  refine ⟨rfl, ⟨_, hget, rfl⟩, ?_⟩
  intro env'
  refine ⟨?_, ?_, ?_, ?_⟩
  · intro dir ext w'' hm
    unfold World.moveCursor at hm
    obtain ⟨x, hx, hm⟩ := bind_inv hm
    have hx := Assoc.at_inv hx
    have hx := hget.symm.trans hx
    cases hx
    obtain ⟨s, hs, _⟩ := bind_inv hm
    have hs := Assoc.at_inv hs
    have hs : ctx.selections.get (View.forBuffer b).key = some s := hs
    rw [hsel] at hs; cases hs
  · intro r hm
    unfold World.deleteSelection at hm
    obtain ⟨x, hx, hm⟩ := bind_inv hm
    have hx := Assoc.at_inv hx
    have hx := hget.symm.trans hx
    cases hx
    obtain ⟨s, hs, _⟩ := bind_inv hm
    have hs := Assoc.at_inv hs
    have hs : ctx.selections.get (View.forBuffer b).key = some s := hs
    rw [hsel] at hs; cases hs
  · intro r hm
    unfold World.getContext at hm
    obtain ⟨x, hx, hm⟩ := bind_inv hm
    have hx := Assoc.at_inv hx
    have hx := hget.symm.trans hx
    cases hx
    obtain ⟨s, hs, _⟩ := bind_inv hm
    have hs := Assoc.at_inv hs
    have hs : ctx.selections.get (View.forBuffer b).key = some s := hs
    rw [hsel] at hs; cases hs
  · intro w'' hm
    unfold World.deleteCurrentView at hm
    obtain ⟨x, hx, hm⟩ := bind_inv hm
    have hx := Assoc.at_inv hx
    have hx := hget.symm.trans hx
    cases hx
    obtain ⟨r, hdel, hm⟩ := bind_inv hm
    unfold World.deleteView at hdel
    split at hdel
    · rename_i hf
      have hf := Assoc.has_false.1 hf
      have hf : Assoc.get (w.views.map.orInsert (View.forBuffer b).key (View.forBuffer b)) (View.forBuffer b).key = none := hf
      rw [Assoc.get_orInsert, if_pos rfl] at hf
      cases hf
    · obtain ⟨v, hrem, _⟩ := bind_inv hdel
      have := (StackMap.remove_some (unwrap_inv hrem)).1
      have := t.stk _ this
      rw [Assoc.has_false.2 hk2] at this; cases this

/-- the messages buffer selected by name -/
example : CoreHistory CleanName (final (checked (fun _ => cleanB) [.join 1 [], .message (some 1) ['h', 'i']])) ∧
    (final (checked (fun _ => cleanB) [.join 1 [], .message (some 1) ['h', 'i']])).buffers.has BUFFER_MESSAGES = true ∧
    (final (checked (fun _ => cleanB) [.join 1 [], .message (some 1) ['h', 'i']])).views.map.get BUFFER_MESSAGES = none ∧
    (final (checked (fun _ => cleanB) [.join 1 [], .message (some 1) ['h', 'i']])).views.map.get
      (View.forBuffer BUFFER_MESSAGES).key = none ∧
    (session [.join 1 [], .message (some 1) ['h', 'i'], .view 1 BUFFER_MESSAGES]).toOption.isSome = true ∧
    session [.join 1 [], .message (some 1) ['h', 'i'], .view 1 BUFFER_MESSAGES, .move 1 .right false] = .error .index :=
  ⟨checked_history (fun _ _ => cleanB_ok) (final_ok (by decide +kernel)), by decide +kernel, by decide +kernel,
    by decide +kernel, by decide +kernel, by decide +kernel⟩

end Ced.Props

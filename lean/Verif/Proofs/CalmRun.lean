import Verif.Proofs.CalmDelete
import Verif.Props.Core

/-! Auxiliary lemmas: in sessions of a kind, every request that is safe for this kind completes. -/

namespace Ced.Props
open Spec PieceTable

/-- requests that are safe in the sessions of a kind -/
def SafeIn (K : Kind) (env : Env) (w : World) : CoreOp → Prop
  | .join _ _ => w.clients.stack = [] → w.views.map.length = 1
  | .leave _ => True
  | .edit c name scratch => w.clients.map.has c = true ∧ (K.name name ∧ '{' ∉ name) ∧ World.Opens K env w name scratch
  | .scratch c name content => w.clients.map.has c = true ∧ (K.name name ∧ '{' ∉ name) ∧
      ((content = [] ∧ World.AllSel K w name [NL]) ∨ ((K.text content ∧ EndsWithNewline content) ∧ World.AllSel K w name content))
  | .view c id => w.clients.map.has c = true ∧ (w.views.map.has id = true ∨ w.buffers.has id = false)
  | .viewDelete c => ∃ ctx, w.clients.map.get c = some ctx ∧ Closable w ctx.view
  | .viewAdd c _ => ∃ ctx, w.clients.map.get c = some ctx ∧
      ∀ d x, w.clients.map.get d = some x → NoLeftover x ctx.view
  | .viewRemove c b => ∃ ctx, w.clients.map.get c = some ctx ∧
      (ctx.view.buffers = [b] → Closable w ctx.view) ∧
      (b ∈ ctx.view.buffers → ctx.view.buffers ≠ [b] → BUFFER_DEBUG ∈ ctx.view.buffers → b ≠ BUFFER_DEBUG →
        ShownElsewhere w ctx.view b)
  | .move c dir ext => ∃ ctx, w.clients.map.get c = some ctx ∧ NoLeftover ctx ctx.view ∧
      ∀ m n ss sel b, ctx.selections.get ctx.view.key = some m → m.get n = some ss → sel ∈ ss → w.buffers.get n = some b →
        Good K b → K.sel b.content.content sel →
        ∃ sel', Selection.move env.seg b.content dir ext sel = .ok sel' ∧ K.sel b.content.content sel'
  | .deleteSelection c => ∃ ctx, w.clients.map.get c = some ctx ∧ NoLeftover ctx ctx.view ∧
      ∀ m n sel b, ctx.selections.get ctx.view.key = some m → m.get n = some [sel] → w.buffers.get n = some b →
        Good K b → K.sel b.content.content sel →
        ∃ b' y, World.deleteInBuffer env b [sel] = .ok (b', [y]) ∧ Good K b' ∧
          K.sel b'.content.content (sel.clampTo (b'.content.content.length - 1)) ∧
          ∀ d x k m' ss, w.clients.map.get d = some x → x.selections.get k = some m' → ¬ (d = c ∧ k = ctx.view.key) →
            m'.get n = some ss → ∀ sel' ∈ ss, K.sel b'.content.content sel'
  | .append b x xs => (K.name b ∧ '{' ∉ b) ∧ K.text (x :: xs) ∧ EndsWithNewline (x :: xs)
  | .debug text => K.name text
  | .message _ text => K.name text
  | .error _ tag text => K.name tag ∧ K.name text
  | .notify _ _ => True

theorem safeIn_ordinary {K : Kind} {env : Env} {w : World} {op : CoreOp} (h : SafeIn K env w op) : Ordinary w op := by
  refine ⟨?_, ?_, ?_⟩
  · intro name hn
    cases op <;> simp only [CoreOp.creates] at hn <;> cases hn
    · exact h.2.1.2
    · exact h.2.1.2
    · exact h.1.2
  · rintro c id rfl; exact h.2
  · rintro id s rfl; exact h

theorem start_total {K : Kind} {env : Env} (hseg : K.seg env.seg) {cwd : Path} {args cwdText : Str} (ha : K.name args)
    (hc : K.name cwdText) : ∃ w, World.start env cwd args cwdText = .ok w ∧ World.Drawn K w := by
  have dn : World.Drawn K (World.new cwd) := by
    refine ⟨?_, ?_, ?_⟩
    · intro n b h; cases h
    · intro n h; cases h
    · intro v hv c ctx m n ss b h; cases h
  have an : World.AllViews AllWhole (World.new cwd) := ⟨(by intro k v h; cases h), (by intro c ctx h; cases h)⟩
  obtain ⟨w1, e1, d1⟩ := World.debug_total (env := env) hseg dn an rfl (by simp [World.new, StackMap.new, Assoc.keys])
    (text := str!"command: " ++ args) (K.app (K.lit rfl) ha) (by intro _ v hv c ctx m h; cases h)
    (by intro c ctx h; cases h)
  have l1 := World.debug_ok e1
  have c1 : w1.clients = StackMap.new := l1.clients
  have v1 : w1.views = StackMap.new := l1.views
  have noc : ∀ {c ctx}, w1.clients.map.get c = some ctx → False := by
    intro c ctx h; rw [c1] at h; cases h
  obtain ⟨w2, e2, d2⟩ := World.debug_total (env := env) hseg d1 (World.views_debug an e1) (l1.mode.trans rfl)
    (by rw [c1]; simp [StackMap.new, Assoc.keys])
    (text := str!"cwd: " ++ cwdText) (K.app (K.lit rfl) hc) (by intro _ v hv c ctx m h; exact (noc h).elim)
    (by intro c ctx h; exact (noc h).elim)
  have l2 := World.debug_ok e2
  have noc2 : ∀ {c ctx}, w2.clients.map.get c = some ctx → False := by
    intro c ctx h; rw [l2.clients, c1] at h; cases h
  have d3 : World.Drawn K (w2.openScratch BUFFER_SCRATCH []) := by
    refine World.drawn_set d2 (K.lit rfl) (good_scratch _ (Or.inl rfl)) ?_ w2.out
    intro v hv c ctx m ss h; exact (noc2 h).elim
  obtain ⟨st, e3, _⟩ := World.addView_ok (w2.openScratch BUFFER_SCRATCH []) ((View.addLens [] BUFFER_DEBUG .whole).addLens BUFFER_SCRATCH .whole)
  refine ⟨_, ?_, World.drawn_addView d3 (by intro c ctx m n ss b h; exact (noc2 h).elim) e3⟩
  unfold World.start
  rw [e1, except_bind_ok, e2, except_bind_ok]
  exact e3

theorem calm_start {K : Kind} {env : Env} {cwd : Path} {args cwdText : Str} {w : World} (hd : World.Drawn K w)
    (h : World.start env cwd args cwdText = .ok w) : World.Calm K w :=
  ⟨World.inv_start h, World.sel_start h, World.tidy_start h, World.views_start allWhole h, World.ranked_start h,
    World.maps_history (ok := Ordinary) World.oneEach_stable (.start h), hd⟩

theorem calm_run {env : Env} {K : Kind} (hseg : K.seg env.seg) (hf : ∀ i, (env.stale i).follows = true) {w : World} (k : World.Calm K w)
    {op : CoreOp} (hs : SafeIn K env w op) : ∃ w', op.run env w = .ok w' ∧ World.Drawn K w' := by
  have i := k.inv
  have logs : ∀ {name : Str} {text : Str}, K.name name → K.name text →
      ∃ w', w.appendTo env name (Str.encode (text ++ ['\n'])) = .ok w' ∧ World.Drawn K w' := by
    intro name text hn ht
    exact World.append_calm hseg i k.drawn k.whole hn
      (K.enc (K.app ht (b := ['\n']) (K.lit rfl))) (encode_ends text)
  cases op with
  | join id s => exact World.join_total hseg k id s hs
  | leave id => exact World.leave_total hseg k id
  | edit c name sc => exact World.edit_total hseg hf i k.drawn k.whole k.tidy hs.1 hs.2.1 hs.2.2
  | scratch c name content => exact World.scratch_total hseg hf i k.drawn k.whole k.tidy hs.1 hs.2.1 hs.2.2
  | view c id =>
    show ∃ w', (w.view env c id).map Prod.fst = .ok w' ∧ _
    cases hv : w.views.map.get id with
    | some v =>
      obtain ⟨w', e, d⟩ := World.view_total (env := env) hseg i k.drawn k.whole hs.1 hv
      exact ⟨w', by rw [e]; rfl, d⟩
    | none =>
      have hb : w.buffers.has id = false := by
        rcases hs.2 with h | h
        · rw [Assoc.has_false.2 hv] at h; cases h
        · exact h
      rw [C31_unknown hv (Assoc.has_false.1 hb)]
      exact ⟨w, rfl, k.drawn⟩
  | viewDelete c =>
    obtain ⟨ctx, hc, h⟩ := hs
    exact World.viewDelete_total hseg k hc h
  | viewAdd c b =>
    obtain ⟨ctx, hc, h⟩ := hs
    obtain ⟨r, e, d⟩ := World.viewAdd_total (env := env) hseg k hc (b := b) h
    exact ⟨r.1, by show (w.addToCurrentView env c b).map Prod.fst = _; rw [e]; rfl, d⟩
  | viewRemove c b =>
    obtain ⟨ctx, hc, h1, h2⟩ := hs
    obtain ⟨r, e, d⟩ := World.viewRemove_total (env := env) hseg k hc (b := b) h1 h2
    exact ⟨r.1, by show (w.removeFromCurrentView env c b).map Prod.fst = _; rw [e]; rfl, d⟩
  | move c dir ext =>
    obtain ⟨ctx, hc, h1, h2⟩ := hs
    exact World.move_total hseg k hc ext h1 fun m n ss sel b g1 g2 g3 g4 g5 => h2 m n ss sel b g1 g2 g3 g4 (k.drawn.good n b g4) g5
  | deleteSelection c =>
    obtain ⟨ctx, hc, h1, h2⟩ := hs
    obtain ⟨r, e, d⟩ := World.deleteSelection_total (env := env) hseg k hc h1 h2
    exact ⟨r.1, by show (w.deleteSelection env c).map Prod.fst = _; rw [e]; rfl, d⟩
  | append b x xs => exact World.append_calm hseg i k.drawn k.whole hs.1.1 hs.2.1 hs.2.2
  | debug text => exact World.debug_calm hseg i k.drawn k.whole hs
  | message c text =>
    have key : ∀ pre : Str, K.name pre → ∃ w', w.appendTo env BUFFER_MESSAGES (Str.encode (pre ++ text ++ ['\n'])) = .ok w' ∧ World.Drawn K w' :=
      fun pre hp => logs (K.lit rfl) (K.app hp hs)
    show ∃ w', w.message env c text = .ok w' ∧ _
    unfold World.message
    cases c with
    | some id =>
      obtain ⟨w', e, d⟩ := key _ (K.app (K.nat id) (b := ['|']) (K.lit rfl))
      dsimp only
      rw [e]
      exact ⟨_, rfl, World.drawn_same d rfl rfl rfl⟩
    | none =>
      obtain ⟨w', e, d⟩ := key ['*', '|'] (K.lit rfl)
      dsimp only
      rw [e]
      exact ⟨_, rfl, World.drawn_same d rfl rfl rfl⟩
  | error c tag text =>
    have ht : K.name (tag ++ str!": " ++ text) := K.app (K.app hs.1 (K.lit rfl)) hs.2
    have key : ∀ pre : Str, K.name pre → ∃ w', w.appendTo env BUFFER_ERRORS (Str.encode (pre ++ (tag ++ str!": " ++ text) ++ ['\n'])) = .ok w' ∧ World.Drawn K w' :=
      fun pre hp => logs (K.lit rfl) (K.app hp ht)
    show ∃ w', w.error env c tag text = .ok w' ∧ _
    unfold World.error
    cases c with
    | some id =>
      obtain ⟨w', e, d⟩ := key _ (K.app (K.nat id) (b := ['|']) (K.lit rfl))
      dsimp only
      rw [e]
      exact ⟨_, rfl, World.drawn_same d rfl rfl rfl⟩
    | none =>
      obtain ⟨w', e, d⟩ := key ['*', '|'] (K.lit rfl)
      dsimp only
      rw [e]
      exact ⟨_, rfl, World.drawn_same d rfl rfl rfl⟩
  | notify c note => exact ⟨_, rfl, World.drawn_same k.drawn rfl rfl rfl⟩

theorem calm_step {env : Env} {K : Kind} (hseg : K.seg env.seg) (hf : ∀ i, (env.stale i).follows = true) {w : World} (k : World.Calm K w)
    {op : CoreOp} (hs : SafeIn K env w op) : ∃ w', op.run env w = .ok w' ∧ World.Calm K w' := by
  obtain ⟨w', e, d⟩ := calm_run hseg hf k hs
  have ho := safeIn_ordinary hs
  exact ⟨w', e, World.inv_op k.inv ho.1 e, World.sel_op k.inv k.sel ho e, World.tidy_op k.inv k.tidy ho.1 e,
    World.views_op allWhole k.whole e, World.ranked_op k.inv k.ranked ho e, World.maps_op World.oneEach_stable k.one e, d⟩


end Ced.Props

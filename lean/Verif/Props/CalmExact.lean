import Verif.Props.Calm
import Verif.Props.CoreEdit
import Verif.Props.CoreMove
import Verif.Proofs.CoreNeat

/-! # C30, C31, C20: when requests crash, exactly -/

namespace Ced.Props
open Spec PieceTable

variable {w : World} {env : Env}

/-! ### Closing a view -/

/-- C30: closing the view of a client completes exactly if it is closable. -/
theorem C30_exact (h : SafeHistory w) (hseg : IsSegmentation env.seg) {c : Nat} {ctx : ClientContext}
    (hc : w.clients.map.get c = some ctx) :
    (∃ w', w.deleteCurrentView env c = .ok w') ↔ Closable w ctx.view := by
  constructor
  · rintro ⟨w', hd⟩
    refine ⟨?_, ?_⟩
    · intro hdbg b hb hne
      apply Classical.byContradiction
      intro hs
      exact C30_debug_view_crashes (safe_clean h) hc hdbg hb hne hs env w' hd
    · by_cases ho : ∃ k v', w.views.map.get k = some v' ∧ v' ≠ ctx.view
      · exact Or.inl ho
      · refine Or.inr (C30_last_view (safe_clean h) hc ?_ hd)
        intro k v hk
        apply Classical.byContradiction
        intro hne
        exact ho ⟨k, v, hk, hne⟩
  · intro hcl
    obtain ⟨w', e, _⟩ := World.viewDelete_total (env := env) hseg (safe_calm h) hc hcl
    exact ⟨w', e⟩

/-! ### Selecting a view -/

/-- The client `c` can do nothing with its view: motions, deleting the selection, running a script and closing the view all
crash. -/
def Stuck (w : World) (c : Nat) : Prop :=
  ∀ env, (∀ dir ext w', w.moveCursor env c dir ext ≠ .ok w') ∧ (∀ r, w.deleteSelection env c ≠ .ok r) ∧
    (∀ r, w.getContext env c ≠ .ok r) ∧ (∀ w', w.deleteCurrentView env c ≠ .ok w')

/-- C31: by its identifier, every view can be selected. -/
theorem C31_view (h : SafeHistory w) (hseg : IsSegmentation env.seg) (hf : ∀ i, (env.stale i).follows = true) {c : Nat}
    (hc : w.clients.map.has c = true) {id : Str} {v : View} (hv : w.views.map.get id = some v) :
    ∃ w' x, w.view env c id = .ok (w', none) ∧ SafeHistory w' ∧ w'.clients.map.get c = some x ∧ x.view = v := by
  obtain ⟨w', e, _⟩ := World.view_total (env := env) hseg (safe_calm h).inv (safe_calm h).drawn (safe_calm h).whole hc hv
  obtain ⟨_, _, _, ⟨_, x, _, hx, hxv, _⟩, _⟩ := C31_by_identifier hv e
  refine ⟨w', x, e, ?_, hx, hxv⟩
  refine .step (op := .view c id) h ⟨hc, Or.inl (Assoc.has_iff.2 ⟨v, hv⟩)⟩ hseg hf ?_
  show (w.view env c id).map Prod.fst = _
  rw [e]
  rfl

theorem orInsert_present {m : Assoc Str View} {k : Str} {v : View} (h : m.has k = true) : m.orInsert k v = m := by
  unfold Assoc.orInsert
  rw [h]
  rfl

/-- C31: by the name of a buffer of which a view shows nothing else, that view is selected. -/
theorem C31_buffer (h : SafeHistory w) (hseg : IsSegmentation env.seg) (hf : ∀ i, (env.stale i).follows = true) {c : Nat}
    (hc : w.clients.map.has c = true) {b : Str} (hb : w.buffers.has b = true) (hn : w.views.map.get b = none)
    (hv : w.views.map.has (View.forBuffer b).key = true) :
    ∃ w' x, w.view env c b = .ok (w', none) ∧ SafeHistory w' ∧ w'.clients.map.get c = some x ∧ x.view = View.forBuffer b := by
  obtain ⟨v, hv'⟩ := Assoc.has_iff.1 hv
  have hsame := World.same_view (safe_calm h).inv (v := View.forBuffer b) (by
    rw [World.forBuffer_buffers]; intro n hn; rw [List.mem_singleton] at hn; rw [hn]; exact hb) hv'
  subst hsame
  obtain ⟨w', x, e, hs, hx, hxv⟩ := C31_view h hseg hf hc hv'
  refine ⟨w', x, ?_, hs, hx, hxv⟩
  rw [← e]
  unfold World.view World.viewExists World.bufferExists
  rw [Assoc.has_false.2 hn, hb, hv]
  simp only [Bool.false_eq_true, if_false, if_true, orInsert_present hv, Assoc.at_ok hv', except_bind_ok]

/-- C31 is false of the code: by the name of a buffer of which no view shows nothing else, the request completes, the client
sees the buffer, and can then do nothing with it. -/
theorem C31_stuck (h : SafeHistory w) (hseg : IsSegmentation env.seg) {c : Nat} (hc : w.clients.map.has c = true) {b : Str}
    (hb : w.buffers.has b = true) (hn : w.views.map.get b = none) (hv : w.views.map.get (View.forBuffer b).key = none) :
    ∃ w' x, w.view env c b = .ok (w', none) ∧ w'.clients.map.get c = some x ∧ x.view.buffers = [b] ∧ Stuck w' c := by
  have k := safe_calm h
  obtain ⟨x, hx⟩ := Assoc.has_iff.1 hc
  have hbs : ∀ n ∈ (View.forBuffer b).buffers, w.buffers.has n = true := by
    rw [World.forBuffer_buffers]; intro n hn; rw [List.mem_singleton] at hn; rw [hn]; exact hb
  have hnone : ∀ d y, w.clients.map.get d = some y → y.selections.get (View.forBuffer b).key = none := by
    intro d y hd
    cases hs : y.selections.get (View.forBuffer b).key with
    | none => rfl
    | some m =>
      have := k.tidy.sel d y _ hd (Assoc.has_iff.2 ⟨m, hs⟩) (by simp)
      rw [Assoc.has_false.2 hv] at this; cases this
  have hd0 : World.Drawn asciiKind { w with views := { w.views with map := w.views.map.orInsert (View.forBuffer b).key (View.forBuffer b) } } := by
    refine ⟨k.drawn.good, k.drawn.name, ?_⟩
    intro v' hl d y m n ss buf hd hm
    rcases hl with ⟨k', hk'⟩ | ⟨d', y', hd', rfl⟩
    · have hk' : Assoc.get (w.views.map.orInsert (View.forBuffer b).key (View.forBuffer b)) k' = some v' := hk'
      rw [Assoc.get_orInsert] at hk'
      split at hk'
      · rename_i e
        rw [hv] at hk'
        cases hk'
        have hm : y.selections.get (View.forBuffer b).key = some m := hm
        rw [hnone d y hd] at hm
        cases hm
      · exact k.drawn.fits v' (Or.inl ⟨k', hk'⟩) d y m n ss buf hd hm
    · exact k.drawn.fits _ (Or.inr ⟨d', y', hd', rfl⟩) d y m n ss buf hd hm
  have ha0 : World.AllViews AllWhole { w with views := { w.views with map := w.views.map.orInsert (View.forBuffer b).key (View.forBuffer b) } } := by
    refine ⟨?_, k.whole.clients⟩
    intro k' v' hk'
    have hk' : Assoc.get (w.views.map.orInsert (View.forBuffer b).key (View.forBuffer b)) k' = some v' := hk'
    rw [Assoc.get_orInsert] at hk'
    split at hk'
    · rename_i e
      rw [hv] at hk'
      cases hk'
      exact allWhole.add (v := []) (b := b) allWhole.empty
    · exact k.whole.views k' v' hk'
  have hd1 := World.drawn_setClient (c := c) (x := { x with view := View.forBuffer b }) hd0
    (Or.inl ⟨(View.forBuffer b).key, by
      show Assoc.get (w.views.map.orInsert (View.forBuffer b).key (View.forBuffer b)) _ = _
      rw [Assoc.get_orInsert, if_pos rfl, hv]; rfl⟩) (st := w.clients.stack) (by
      intro v' hl m n ss buf hm hn' hs hg
      exact hd0.fits v' hl c x m n ss buf hx hm hn' hs hg)
  have ha1 := World.views_setClient (c := c) (ctx := { x with view := View.forBuffer b }) (st := w.clients.stack) ha0
    (allWhole.add (v := []) (b := b) allWhole.empty)
  obtain ⟨o, e⟩ := World.notify_total (env := env) hseg hd1 ha1 (ids := [c]) (by
    intro c' hc'
    rw [List.mem_singleton] at hc'
    subst hc'
    exact ⟨_, Assoc.get_set_self _ _ _, hbs⟩)
  have hview : ∃ w', w.view env c b = .ok (w', none) := by
    unfold World.view World.viewExists World.bufferExists
    rw [Assoc.has_false.2 hn, hb, hx]
    simp only [unwrapR, except_bind_ok, Bool.false_eq_true, if_false, if_true]
    exact ⟨_, by rw [e]; rfl⟩
  obtain ⟨w', hw'⟩ := hview
  obtain ⟨_, ⟨x', hx', hxb⟩, hst⟩ := C31_by_buffer_crashes (safe_clean h) hb hn hv hw'
  exact ⟨w', x', hw', hx', hxb, hst⟩

/-! ### After removing a buffer from a view -/

/-- `view-remove` of a buffer that no other view shows leaves a client with selections in a buffer that no longer exists:
motions, deleting the selection and scripts crash until the client selects another view. -/
theorem C33_leftover (h : CoreHistory Ordinary w) {c : Nat} {ctx : ClientContext} {b b' : Str}
    (hc : w.clients.map.get c = some ctx) (hm : b ∈ ctx.view.buffers) (hm' : b' ∈ ctx.view.buffers) (hne : b' ≠ b)
    (hdbg : b ≠ BUFFER_DEBUG) (hs : ¬ ShownElsewhere w ctx.view b) {w' : World} {e : Option CoreError}
    (hd : w.removeFromCurrentView env c b = .ok (w', e)) :
    ∀ env', (∀ dir ext w'', w'.moveCursor env' c dir ext ≠ .ok w'') ∧ (∀ r, w'.deleteSelection env' c ≠ .ok r) ∧
      ∀ r, w'.getContext env' c ≠ .ok r := by
  have hcl : CoreHistory CleanName w := history_mono (fun _ _ h => h.1) h
  obtain ⟨_, v', hrep, _, _, _, _, hgone⟩ := C33_remove hcl hc hm hm' hne hd
  have hgone := hgone hdbg hs
  obtain ⟨sels, hsel, hall⟩ := World.sel_has (World.inv_history (fun _ _ h => h.1) h)
    (World.sel_history h) c ctx hc
  obtain ⟨s, hsb⟩ := hall b hm
  obtain ⟨x, hx, hxv, hfol⟩ := hrep.follow c ctx hc
  rw [if_pos rfl] at hxv
  obtain ⟨m', hm', hg'⟩ := hfol sels b [s] hsel hsb
  rw [← hxv] at hm'
  have hmem := Assoc.get_mem hg'
  intro env'
  refine ⟨?_, ?_, ?_⟩
  · intro dir ext w'' hr
    unfold World.moveCursor at hr
    rw [Assoc.at_ok hx, except_bind_ok] at hr
    dsimp only at hr
    rw [Assoc.at_ok hm', except_bind_ok] at hr
    obtain ⟨ys, hys, _⟩ := bind_inv hr
    obtain ⟨y, hy⟩ := mapM_inv hys _ hmem
    unfold World.moveBuffer at hy
    obtain ⟨buf, hbuf, _⟩ := bind_inv hy
    have := Assoc.at_inv hbuf
    rw [hgone] at this
    cases this
  · intro r hr
    unfold World.deleteSelection at hr
    rw [Assoc.at_ok hx, except_bind_ok] at hr
    rw [Assoc.at_ok hm', except_bind_ok] at hr
    obtain ⟨st, hst, _⟩ := bind_inv hr
    have key : ∀ (l : List (Str × List Selection)) (st st' : World × List Bytes × List Str),
        st.1.buffers.get b = none → (∃ ss, (b, ss) ∈ l) → l.foldlM (World.deleteStep env') st = .ok st' → False := by
      intro l
      induction l with
      | nil => rintro st st' _ ⟨ss, hss⟩; cases hss
      | cons kv l ih =>
        rintro st st' hn ⟨ss, hss⟩ hfold
        rw [List.foldlM_cons] at hfold
        obtain ⟨st1, h1, hfold⟩ := bind_inv hfold
        unfold World.deleteStep at h1
        obtain ⟨buf, hbuf, h1⟩ := bind_inv h1
        have hbuf := unwrap_inv hbuf
        by_cases hkv : kv.1 = b
        · rw [hkv, hn] at hbuf; cases hbuf
        · obtain ⟨⟨b2, dl⟩, hdel, h1⟩ := bind_inv h1
          cases h1
          refine ih _ st' ?_ ⟨ss, ?_⟩ hfold
          · show Assoc.get (st.1.buffers.set kv.1 b2) b = none
            rw [Assoc.get_set_ne _ (fun e => hkv e.symm)]; exact hn
          · rcases List.mem_cons.1 hss with e | e
            · exact absurd (by rw [← e]) hkv
            · exact e
    exact key _ _ _ hgone ⟨_, hmem⟩ hst
  · intro r hr
    unfold World.getContext at hr
    rw [Assoc.at_ok hx, except_bind_ok] at hr
    rw [Assoc.at_ok hm', except_bind_ok] at hr
    obtain ⟨ys, hys, _⟩ := bind_inv hr
    obtain ⟨y, hy⟩ := mapM_inv hys _ hmem
    obtain ⟨ds, hds, _⟩ := bind_inv hy
    obtain ⟨z, hz⟩ := mapM_inv hds s (by simp)
    unfold World.selectionData World.getCoord at hz
    rw [hgone] at hz
    cases hz

/-- Requests other than `view-remove`, with names as in C26. -/
def NoRemoval (w : World) (op : CoreOp) : Prop := CleanName w op ∧ ∀ c b, op ≠ .viewRemove c b

/-- Without `view-remove` requests, there are no leftover selections, in any view. -/
theorem C33_no_leftover (h : CoreHistory NoRemoval w) {c : Nat} {ctx : ClientContext} (hc : w.clients.map.get c = some ctx) :
    NoLeftover ctx ctx.view ∧ ∀ k v, w.views.map.get k = some v → NoLeftover ctx v := by
  have i := World.inv_history (fun _ _ h => h.1) h
  have t := World.neat_history (fun _ _ h => h) h
  refine ⟨t c ctx _ _ hc (i.clients c ctx hc) (by simp), fun k v hv => ?_⟩
  have := t c ctx k v hc hv (by simp)
  rw [← (i.views k v hv).1] at this
  exact this

/-! ### Moving the cursor, and what scripts are told -/

/-- The text of the buffers in which `ctx` has selections, in its view. -/
def SelectedIn (w : World) (ctx : ClientContext) (sel : Selection) (s : Bytes) : Prop :=
  ∃ m n ss b, ctx.selections.get ctx.view.key = some m ∧ m.get n = some ss ∧ sel ∈ ss ∧ w.buffers.get n = some b ∧ Shows b.content s

/-- C20, requests: moving the cursor completes unless it is to the end of the line, a selection of the client is on an empty
line, and the text has other bytes. -/
theorem C20_request (h : SafeHistory w) (hseg : IsSegmentation env.seg) {c : Nat} {ctx : ClientContext}
    (hc : w.clients.map.get c = some ctx) (hl : NoLeftover ctx ctx.view) (dir : CursorTarget) (ext : Bool) :
    (∃ w', w.moveCursor env c dir ext = .ok w') ↔
      ¬ (dir = .lineEnd ∧ ∃ sel s, SelectedIn w ctx sel s ∧ OnEmptyLine s sel.cursor ∧ s.length ≠ 1) := by
  have k := safe_calm h
  constructor
  · rintro ⟨w', hr⟩ ⟨rfl, sel, s, ⟨m, n, ss, b, hm, hn, hsel, hb, hs⟩, hline, hlen⟩
    unfold World.moveCursor at hr
    rw [Assoc.at_ok hc, except_bind_ok] at hr
    dsimp only at hr
    rw [Assoc.at_ok hm, except_bind_ok] at hr
    obtain ⟨ys, hys, _⟩ := bind_inv hr
    obtain ⟨y, hy⟩ := mapM_inv hys _ (Assoc.get_mem hn)
    unfold World.moveBuffer at hy
    rw [Assoc.at_ok hb, except_bind_ok] at hy
    obtain ⟨zs, hzs, _⟩ := bind_inv hy
    obtain ⟨z, hz⟩ := mapM_inv hzs sel hsel
    have hg := k.drawn.good n b hb
    have hcon : b.content.content = s :=
      PieceTable.shows_unique (shows_content (reachable_ready (forward_any hg.history)).wf) hs
    have hin := k.drawn.fits ctx.view (World.live_view hc) c ctx m n ss b hc hm (hl m n hm (Assoc.has_iff.2 ⟨ss, hn⟩)) hn hb sel hsel
    rw [hcon] at hin
    obtain ⟨n0, c0, hat⟩ := at_exists hin.2.1
    have hcr := (C20_crash_iff (forward_steady hg.history) hs (hcon ▸ hg.text) (hcon ▸ hg.ends) hseg hin .lineEnd ext hat).2 ?_
    · obtain ⟨e, he⟩ := hcr
      rw [he] at hz; cases hz
    · obtain ⟨n1, pre, suf, hline, ho⟩ := hline
      have hat1 : At s sel.cursor n1 1 := ⟨pre, [], suf, hline, Nat.le_refl _, by simp, by rw [ho]; rfl⟩
      have := (at_unique hat hat1).1
      subst this
      exact ⟨rfl, hlen, pre, suf, hline⟩
  · intro hno
    obtain ⟨w', e, _⟩ := World.move_ascii (env := env) hseg k hc ext (dir := dir) hl (by
      intro hd m n ss sel b s hm hn hsel hb hs hline
      apply Classical.byContradiction
      intro hne
      exact hno ⟨hd, sel, s, ⟨m, n, ss, b, hm, hn, hsel, hb, hs⟩, hline, hne⟩)
    exact ⟨w', e⟩

/-- C58, C77: the context of every client without leftover selections can be given to scripts. -/
theorem C58_total (h : SafeHistory w) (hseg : IsSegmentation env.seg) {c : Nat} {ctx : ClientContext}
    (hc : w.clients.map.get c = some ctx) (hl : NoLeftover ctx ctx.view) : ∃ r, w.getContext env c = .ok r := by
  have k := safe_calm h
  obtain ⟨m, hm, _⟩ := World.sel_has k.inv k.sel c ctx hc
  obtain ⟨data, e, _⟩ := C58_context (safe_clean h) hseg hc hm (by
    intro n ss hn
    have hnv := hl m n hm (Assoc.has_iff.2 ⟨ss, hn⟩)
    obtain ⟨b, hb⟩ := Assoc.has_iff.1 (World.live_has k.inv (World.live_view hc) n hnv)
    have hg := k.drawn.good n b hb
    refine ⟨_, b, hb, shows_content (reachable_ready (forward_any hg.history)).wf, hg.text, hg.ends, ?_⟩
    intro sel hsel
    have hin := k.drawn.fits ctx.view (World.live_view hc) c ctx m n ss b hc hm hnv hn hb sel hsel
    exact ⟨hin.1, hin.2.1⟩)
  exact ⟨_, e⟩

end Ced.Props

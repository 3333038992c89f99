import Verif.Proofs.CalmClose
import Verif.Proofs.CoreStack
import Verif.Proofs.CoreMaps
import Verif.Props.Motion
import Verif.Spec.Calm

/-! Auxiliary lemmas: safe requests complete (joining, leaving, opening, closing and changing views). -/

namespace Ced
open Spec Props PieceTable

namespace World
variable {K : Kind} {env : Env} {w w' : World}

/-- what holds between two safe requests -/
structure Calm (K : Kind) (w : World) : Prop where
  inv : Inv w
  sel : Sel (fun _ => False) w
  tidy : Tidy (fun _ => False) w
  whole : AllViews AllWhole w
  ranked : Ranked w
  one : Maps OneEach w
  drawn : Drawn K w

theorem safe_ordinary {op : CoreOp} (h : Safe env w op) : Ordinary w op := by
  refine ⟨?_, ?_, ?_⟩
  · intro name hn
    cases op <;> simp only [CoreOp.creates] at hn <;> cases hn
    · exact h.2.1.2
    · exact h.2.1.2
    · exact h.1.2
  · rintro c id rfl; exact h.2
  · rintro id s rfl; exact h

theorem live_registered (i : Inv w) {v : View} (h : Live w v) : w.views.map.get v.key = some v := by
  rcases h with ⟨k, hk⟩ | ⟨c, ctx, hc, rfl⟩
  · rw [(i.views k v hk).1]; exact hk
  · exact i.clients c ctx hc

/-- a client is added or changed: its view is in use, its selections come from a client there -/
theorem drawn_setClient (d : Drawn K w) {c : Nat} {x : ClientContext} (hv : Live w x.view) {st : List Nat}
    (hs : ∀ v, Live w v → ∀ m n ss b, x.selections.get v.key = some m → n ∈ v.buffers → m.get n = some ss →
      w.buffers.get n = some b → Fits K b ss) :
    Drawn K { w with clients := { stack := st, map := w.clients.map.set c x } } := by
  refine ⟨d.good, d.name, ?_⟩
  have hl : ∀ v, Live { w with clients := { stack := st, map := w.clients.map.set c x } } v → Live w v := by
    intro v h
    rcases h with ⟨k, hk⟩ | ⟨c', ctx', hc', rfl⟩
    · exact Or.inl ⟨k, hk⟩
    · have hc' : Assoc.get (w.clients.map.set c x) c' = some ctx' := hc'
      rw [Assoc.get_set] at hc'
      split at hc'
      · cases hc'; exact hv
      · exact live_view hc'
  intro v hlv c' ctx m n ss b hc hk hnv hm hb
  have hc : Assoc.get (w.clients.map.set c x) c' = some ctx := hc
  rw [Assoc.get_set] at hc
  split at hc
  · cases hc; exact hs v (hl v hlv) m n ss b hk hnv hm hb
  · exact d.fits v (hl v hlv) c' ctx m n ss b hc hk hnv hm hb

theorem join_total (hseg : K.seg env.seg) (k : Calm K w) (id : Nat) (session : Str)
    (ho : w.clients.stack = [] → w.views.map.length = 1) : ∃ w', w.addClient env id session = .ok w' ∧ Drawn K w' := by
  have i := k.inv
  -- the context of the new client
  have hx : ∃ x, w.joinContext = .ok x ∧ Live w x.view ∧
      ∀ v, Live w v → ∀ m n ss b, x.selections.get v.key = some m → n ∈ v.buffers → m.get n = some ss →
        w.buffers.get n = some b → Fits K b ss := by
    unfold joinContext
    cases hl : w.clients.latest with
    | some c =>
      have hc : c ∈ w.clients.stack := by
        unfold StackMap.latest at hl
        exact List.mem_of_mem_head? hl
      obtain ⟨x, hx⟩ := Assoc.has_iff.1 ((i.cstack c).1 hc)
      exact ⟨x, Assoc.at_ok hx, live_view hx, fun v hv m n ss b h1 h2 h3 h4 => k.drawn.fits v hv c x m n ss b hx h1 h2 h3 h4⟩
    | none =>
      obtain ⟨v0, hv0⟩ := i.top
      have hk0 := latest_key i hv0
      simp only [hv0, unwrapR, except_bind_ok, except_pure]
      refine ⟨_, rfl, Or.inl ⟨_, hk0⟩, ?_⟩
      intro v hv m n ss b h1 h2 h3 h4
      have h1 : Assoc.get [(v0.key, freshSelections v0)] v.key = some m := h1
      have h1 : Assoc.get (Assoc.set [] v0.key (freshSelections v0)) v.key = some m := h1
      rw [Assoc.get_set] at h1
      split at h1
      · cases h1
        unfold freshSelections at h3
        rw [get_foldl_set] at h3
        split at h3
        · cases h3; exact fits_new (k.drawn.good n b h4)
        · cases h3
      · cases h1
  obtain ⟨x, e, hxv, hxs⟩ := hx
  obtain ⟨st, ei, _⟩ := StackMap.insert_ok w.clients id x
  have d1 : Drawn K { w with clients := { stack := id :: st, map := w.clients.map.set id x } } := drawn_setClient k.drawn hxv hxs
  have a1 : AllViews AllWhole { w with clients := { stack := id :: st, map := w.clients.map.set id x } } := by
    refine views_setClient k.whole ?_
    rcases hxv with ⟨k', hk'⟩ | ⟨c', x', hc', e'⟩
    · exact k.whole.views k' _ hk'
    · rw [← e']; exact k.whole.clients c' x' hc'
  have hcl : ∀ c ctx, Assoc.get (w.clients.map.set id x) c = some ctx → ∀ n ∈ ctx.view.buffers, w.buffers.has n = true := by
    intro c ctx hc
    rw [Assoc.get_set] at hc
    split at hc
    · cases hc; exact live_has i hxv
    · exact live_has i (live_view hc)
  obtain ⟨w1, e1, dd⟩ := debug_total (env := env) hseg d1 a1 i.mode (by
      have := Assoc.nodup_set i.cnodup id x
      exact this) (text := str!"new client: " ++ natStr id)
    (K.app (K.lit rfl) (K.nat id)) (by
      intro hnone v hv c ctx m hc hm hnv
      have hlv : Live w v := by
        rcases hv with ⟨k', hk'⟩ | ⟨c', x', hc', rfl⟩
        · exact Or.inl ⟨k', hk'⟩
        · have hc' : Assoc.get (w.clients.map.set id x) c' = some x' := hc'
          rw [Assoc.get_set] at hc'
          split at hc'
          · cases hc'; exact hxv
          · exact live_view hc'
      have := live_has i hlv _ hnv
      rw [Assoc.has_false.2 hnone] at this; cases this) (by
      intro c ctx hc _ n hn
      exact Or.inr (hcl c ctx hc n hn))
  refine ⟨w1.notify id (.info (natStr id) session w1.cwd), ?_, drawn_same dd rfl rfl rfl⟩
  unfold addClient
  rw [e, except_bind_ok, ei, except_bind_ok]
  dsimp only
  rw [e1]
  rfl

theorem leave_total (hseg : K.seg env.seg) (k : Calm K w) (id : Nat) : ∃ w', w.removeClient env id = .ok w' ∧ Drawn K w' := by
  have i := k.inv
  unfold removeClient
  have hsub : ∀ c x, (w.clients.remove id).1.map.get c = some x → w.clients.map.get c = some x := by
    intro c x hc
    rcases remove_cases w.clients id with ⟨_, e⟩ | ⟨_, e, _⟩
    · rw [e] at hc; exact hc
    · rw [e, Assoc.get_del] at hc
      split at hc
      · cases hc
      · exact hc
  have hnd : (Assoc.keys (w.clients.remove id).1.map).Nodup := by
    rcases remove_cases w.clients id with ⟨_, e⟩ | ⟨_, e, _⟩
    · rw [e]; exact i.cnodup
    · rw [e]; exact Assoc.nodup_del i.cnodup id
  have hl : ∀ v, Live { w with clients := (w.clients.remove id).1 } v → Live w v := by
    intro v h
    rcases h with h | ⟨c, x, hc, rfl⟩
    · exact Or.inl h
    · exact live_view (hsub c x hc)
  refine debug_total (w := { w with clients := (w.clients.remove id).1 }) hseg ?_ ?_ i.mode hnd
    (K.app (K.lit rfl) (K.nat id)) ?_ ?_
  · refine ⟨k.drawn.good, k.drawn.name, ?_⟩
    intro v hv c ctx m n ss b hc
    exact k.drawn.fits v (hl v hv) c ctx m n ss b (hsub c ctx hc)
  · exact ⟨k.whole.views, fun c x hc => k.whole.clients c x (hsub c x hc)⟩
  · intro hnone v hv c ctx m hc hm hnv
    have := live_has i (hl v hv) _ hnv
    rw [Assoc.has_false.2 hnone] at this; cases this
  · intro c ctx hc _ n hn
    exact Or.inr (live_has i (live_view (hsub c ctx hc)) n hn)

/-- a client goes to a registered view -/
theorem view_total (hseg : K.seg env.seg) (i : Inv w) (d : Drawn K w) (a : AllViews AllWhole w) {c : Nat} {id : Str} {v : View}
    (hc : w.clients.map.has c = true) (hv : w.views.map.get id = some v) : ∃ w', w.view env c id = .ok (w', none) ∧ Drawn K w' := by
  obtain ⟨x, hx⟩ := Assoc.has_iff.1 hc
  have hl : Live w v := Or.inl ⟨id, hv⟩
  have d1 : Drawn K { w with clients := { w.clients with map := w.clients.map.set c { x with view := v } } } := by
    refine drawn_setClient d hl ?_
    intro v' hv' m n ss b h1 h2 h3 h4
    exact d.fits v' hv' c x m n ss b hx h1 h2 h3 h4
  have a1 : AllViews AllWhole { w with clients := { w.clients with map := w.clients.map.set c { x with view := v } } } :=
    views_setClient a (a.views id v hv)
  obtain ⟨o, e⟩ := notify_total (env := env) hseg d1 a1 (ids := [c]) (by
    intro c' hc'
    rw [List.mem_singleton] at hc'
    subst hc'
    exact ⟨_, Assoc.get_set_self _ _ _, live_has i hl⟩)
  refine ⟨_, ?_, drawn_same (w' := { ({ w with clients := { w.clients with map := w.clients.map.set c { x with view := v } } } : World) with out := o }) d1 rfl rfl rfl⟩
  unfold view
  rw [if_pos (by unfold viewExists; exact Assoc.has_iff.2 ⟨v, hv⟩), Assoc.at_ok hv, except_bind_ok, hx]
  simp only [unwrapR, except_bind_ok]
  rw [e]
  rfl

/-- the selections a client has under the identifier of a view of existing buffers are inside the texts -/
theorem old_fits (i : Inv w) (d : Drawn K w) (t : Tidy (fun _ => False) w) {v : View} (hb : ∀ b ∈ v.buffers, w.buffers.has b = true)
    {c : Nat} {ctx : ClientContext} {m : Assoc Str (List Selection)} {n : Str} {ss : List Selection} {b : Buffer}
    (hc : w.clients.map.get c = some ctx) (hm : ctx.selections.get v.key = some m) (hn : n ∈ v.buffers) (hs : m.get n = some ss)
    (hg : w.buffers.get n = some b) : Fits K b ss := by
  obtain ⟨v', hv'⟩ := Assoc.has_iff.1 (t.sel c ctx v.key hc (Assoc.has_iff.2 ⟨m, hm⟩) (by simp))
  have := same_view i hb hv'
  subst this
  exact d.fits v' (Or.inl ⟨_, hv'⟩) c ctx m n ss b hc hm hn hs hg

/-- a file, as opened -/
def fileBuffer (env : Env) (w : World) (name : Str) (f : DiskFile) : Buffer where
  source := .file (env.resolve w.cwd name)
  content := PieceTable.withText (if f.content.getLast? = some NL then f.content else f.content ++ [NL])
  lastSync := some env.now
  modified := false

/-- the selections in the buffer `n` can be drawn in the text `s` -/
def AllSel (K : Kind) (w : World) (n : Str) (s : Bytes) : Prop :=
  ∀ v, Live w v → n ∈ v.buffers → ∀ c ctx m ss, w.clients.map.get c = some ctx → ctx.selections.get v.key = some m →
    m.get n = some ss → ∀ sel ∈ ss, K.sel s sel

/-- it is enough if all the selections there are can be drawn -/
theorem allSel_of {K : Kind} {w : World} {n : Str} {s : Bytes} (h : ∀ c ctx k m ss, w.clients.map.get c = some ctx →
    ctx.selections.get k = some m → m.get n = some ss → ∀ sel ∈ ss, K.sel s sel) : AllSel K w n s :=
  fun v _ _ c ctx m ss h1 h2 h3 => h c ctx v.key m ss h1 h2 h3

/-- the buffer can be opened -/
def Opens (K : Kind) (env : Env) (w : World) (name : Str) (scratch : Bool) : Prop :=
  scratch = false →
    (w.buffers.get name = none → ∃ f, env.fs (env.resolve w.cwd name) = some f ∧ utf8Lossy f.content = f.content ∧ K.text f.content) ∧
    (∀ b, w.buffers.get name = some b → ∃ b' r s, b.loadFromDisk env.stale env.fs env.now = .ok (b', r) ∧
      Shows b'.content s ∧ (K.text s ∧ EndsWithNewline s) ∧ AllSel K w name s)

/-- opening a buffer -/
theorem open_total (hseg : K.seg env.seg) (hf : ∀ i, (env.stale i).follows = true) (i : Inv w) (d : Drawn K w)
    (a : AllViews AllWhole w) {name : Str} (hn : K.name name ∧ '{' ∉ name) {scratch : Bool}
    (hs : Opens K env w name scratch) :
    ∃ r, w.openForEdit env name scratch = .ok r ∧ Drawn K r.1 := by
  have hnew : ∀ b, Good K b → w.buffers.get name = none → Drawn K { w with buffers := w.buffers.set name b } := by
    intro b hb hnone
    refine drawn_set d hn.1 hb ?_ w.out
    intro v hv c ctx m ss hc hm hnv
    have := live_has i hv _ hnv
    rw [Assoc.has_false.2 hnone] at this; cases this
  unfold openForEdit
  cases scratch with
  | true =>
    cases hg : w.buffers.get name with
    | none => exact ⟨_, rfl, hnew _ (good_scratch name (Or.inl rfl)) hg⟩
    | some b => exact ⟨_, rfl, d⟩
  | false =>
    obtain ⟨h1, h2⟩ := hs rfl
    cases hg : w.buffers.get name with
    | none =>
      obtain ⟨f, hff, hlossy, hfa⟩ := h1 hg
      have e : Buffer.newFile env.fs env.now (env.resolve w.cwd name) = .ok (fileBuffer env w name f) := by
        unfold Buffer.newFile readToString
        rw [hff]
        simp only [unwrapR, except_bind_ok, hlossy, if_true]
        rfl
      have hc : EndsWithNewline (if f.content.getLast? = some NL then f.content else f.content ++ [NL]) := by
        unfold EndsWithNewline
        split
        · assumption
        · rw [List.getLast?_append]; rfl
      have hca : K.text (if f.content.getLast? = some NL then f.content else f.content ++ [NL]) := by
        split
        · exact hfa
        · exact K.joined hfa K.nl
      have hgood : Good K (fileBuffer env w name f) := by
        have hcc := (withText_facts (ends_ne hc)).2.1
        exact ⟨forward_newFile e, by unfold fileBuffer; dsimp only; rw [hcc]; exact hca, by unfold fileBuffer; dsimp only; rw [hcc]; exact hc⟩
      dsimp only
      unfold openFile
      rw [e]
      exact ⟨_, rfl, hnew _ hgood hg⟩
    | some b =>
      obtain ⟨b', r, s, e, hsh, hp, hfit⟩ := h2 b hg
      have hfw := forward_load hf (d.good name b hg).history e
      have hcs : b'.content.content = s := ((shows_iff (reachable_ready (forward_any hfw)).wf).1 hsh)
      have hgood : Good K b' := ⟨hfw, by rw [hcs]; exact hp.1, by rw [hcs]; exact hp.2⟩
      have d1 : Drawn K { w with buffers := w.buffers.set name b' } := by
        refine drawn_set d hn.1 hgood ?_ w.out
        intro v hv c ctx m ss hc hm hnv hs' sel hsel
        rw [hcs]
        exact hfit v hv hnv c ctx m ss hc hm hs' sel hsel
      dsimp only
      rw [e, except_bind_ok]
      dsimp only
      cases r with
      | false => exact ⟨_, rfl, d1⟩
      | true =>
        have i1 : Inv { w with buffers := w.buffers.set name b' } := inv_setBuffer i hn.2 b' w.out
        obtain ⟨w2, e2, d2⟩ := debug_calm (env := env) hseg i1 d1 (views_same a rfl rfl) (text := str!"reloaded from disk: " ++ name)
          (K.app (K.lit rfl) hn.1)
        refine ⟨(w2, true), ?_, d2⟩
        rw [if_pos rfl, e2]
        rfl

/-- opening a buffer and going to it -/
theorem edit_total (hseg : K.seg env.seg) (hf : ∀ i, (env.stale i).follows = true) (i : Inv w) (d : Drawn K w)
    (a : AllViews AllWhole w) (t : Tidy (fun _ => False) w) {c : Nat} (hc : w.clients.map.has c = true) {name : Str}
    (hn : K.name name ∧ '{' ∉ name) {scratch : Bool}
    (hs : Opens K env w name scratch) :
    ∃ w', w.edit env c name scratch = .ok w' ∧ Drawn K w' := by
  obtain ⟨⟨w1, b⟩, e1, d1⟩ := open_total hseg hf i d a hn hs
  obtain ⟨i1, hhas⟩ := inv_openForEdit i hn.2 e1
  obtain ⟨hcl, hvw⟩ := openForEdit_same e1
  have a1 := views_openForEdit a e1
  have t1 : Tidy (fun _ => False) w1 := tidy_same t hcl hvw
  have hb1 : ∀ x ∈ (View.forBuffer name).buffers, w1.buffers.has x = true := by
    intro x hx
    rw [forBuffer_buffers, List.mem_singleton] at hx
    rw [hx]; exact hhas
  obtain ⟨st, e2, _⟩ := addView_ok w1 (View.forBuffer name)
  generalize hw2 : ({ w1 with views := { stack := (View.forBuffer name).key :: st, map := w1.views.map.set (View.forBuffer name).key (View.forBuffer name) }, clients := { w1.clients with map := w1.clients.map.mapVals fun _ ctx => addSelections (View.forBuffer name) ctx } } : World) = w2 at e2
  have d2 : Drawn K w2 := drawn_addView d1 (fun c ctx m n ss b hc hm hn hs hg => old_fits i1 d1 t1 hb1 hc hm hn hs hg) e2
  have i2 := inv_addView i1 (forBuffer_wf name) (forBuffer_ne name) hb1 e2
  have a2 := views_addView a1 (views_forBuffer allWhole name) e2
  have hc2 : w2.clients.map.has c = true := by
    rw [← hw2]
    have := Assoc.has_mapVals w1.clients.map (fun _ ctx => addSelections (View.forBuffer name) ctx) c
    rw [hcl] at this
    dsimp only
    rw [hcl, this]; exact hc
  have hv2 : w2.views.map.get (View.forBuffer name).key = some (View.forBuffer name) := by
    rw [← hw2]; exact Assoc.get_set_self _ _ _
  obtain ⟨w3, e3, d3⟩ := view_total (env := env) hseg i2 d2 a2 hc2 hv2
  have i3 := inv_view i2 e3
  have a3 := views_view allWhole a2 e3
  obtain ⟨w4, e4, d4⟩ := debug_calm (env := env) hseg i3 d3 a3 (text := str!"edit: " ++ name) (K.app (K.lit rfl) hn.1)
  have i4 := inv_debug i3 e4
  have a4 := views_debug a3 e4
  unfold edit
  rw [e1, except_bind_ok]
  dsimp only
  rw [e2, except_bind_ok, e3, except_bind_ok]
  dsimp only
  rw [e4, except_bind_ok]
  cases b with
  | false => exact ⟨w4, rfl, d4⟩
  | true =>
    rw [if_pos rfl]
    obtain ⟨o, e5⟩ := notify_total (env := env) hseg d4 a4 (ids := (w4.clientsWithBuffer name).filter (· ≠ c)) (by
      intro c' hc'
      obtain ⟨x, hx, _⟩ := mem_clientsWith i4.cnodup (List.mem_filter.1 hc').1
      exact ⟨x, hx, live_has i4 (live_view hx)⟩)
    exact ⟨_, e5, drawn_same d4 rfl rfl rfl⟩

/-- the script function `scratch` -/
theorem scratch_total (hseg : K.seg env.seg) (hf : ∀ i, (env.stale i).follows = true) (i : Inv w) (d : Drawn K w)
    (a : AllViews AllWhole w) (t : Tidy (fun _ => False) w) {c : Nat} (hc : w.clients.map.has c = true) {name : Str}
    (hn : K.name name ∧ '{' ∉ name) {content : Bytes}
    (hs : (content = [] ∧ AllSel K w name [NL]) ∨ ((K.text content ∧ EndsWithNewline content) ∧ AllSel K w name content)) :
    ∃ w', w.scratch env c name content = .ok w' ∧ Drawn K w' := by
  have hgood : Good K (Buffer.newScratch name content) := good_scratch name (hs.imp (·.1) (·.1))
  have hfit : AllSel K w name (Buffer.newScratch name content).content.content := by
    rcases hs with ⟨rfl, h⟩ | ⟨hp, h⟩
    · exact h
    · unfold Buffer.newScratch
      dsimp only
      rw [if_neg (ends_ne hp.2), (withText_facts (ends_ne hp.2)).2.1]
      exact h
  have d1 : Drawn K (w.openScratch name content) := by
    refine drawn_set d hn.1 hgood ?_ w.out
    intro v hv c ctx m ss hc hm hnv hs' sel hsel
    exact hfit v hv hnv c ctx m ss hc hm hs' sel hsel
  exact edit_total hseg hf (inv_setBuffer i hn.2 _ w.out) d1 (views_same a rfl rfl) (tidy_same t rfl rfl) hc hn (by intro h; cases h)

end World
end Ced

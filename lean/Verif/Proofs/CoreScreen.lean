import Verif.Spec.Screen
import Verif.Proofs.CoreSel
import Verif.Proofs.CoreTidy

/-! # The screens of the clients -/

namespace Ced
open Spec

/-! ## Screens -/

theorem screen_append (c : Nat) (out new : List Broadcast) :
    screen c (out ++ new) = (screen c new).or (screen c out) := by
  unfold screen
  rw [List.reverse_append, List.find?_append]
  cases h : new.reverse.find? fun b => isFor c b && match b.note with | .view _ => true | _ => false with
  | none => simp
  | some b =>
    have := List.find?_some h
    cases hb : b.note <;> rw [hb] at this <;> simp at this
    simp [hb]

theorem screen_quiet {c : Nat} {new : List Broadcast} (h : ∀ b ∈ new, ∀ items, isFor c b = true → b.note ≠ .view items) :
    screen c new = none := by
  unfold screen
  rw [List.find?_eq_none.2]
  · rfl
  · intro b hb
    have := h b (List.mem_reverse.1 hb)
    intro hh
    rw [Bool.and_eq_true] at hh
    cases hn : b.note <;> rw [hn] at hh <;> simp at hh
    exact this _ hh hn

namespace World
variable {env : Env} {w w' : World} {c : Nat}

theorem screen_updates {ids : List Nat} {ps : List (Nat × List ViewParamsItem)} (h : ids.mapM (w.viewParams env) = .ok ps) :
    (c ∉ ids → screen c (updates ps) = none) ∧
    (c ∈ ids → ∃ items, screen c (updates ps) = some items ∧ w.viewParams env c = .ok (c, items)) := by
  induction ids generalizing ps with
  | nil => cases h; exact ⟨fun _ => rfl, fun h => by cases h⟩
  | cons d ids ih =>
    rw [List.mapM_cons] at h
    obtain ⟨p, hp, h⟩ := bind_inv h
    obtain ⟨ps', hps, h⟩ := bind_inv h
    cases h
    obtain ⟨i1, i2⟩ := ih hps
    have e : updates (p :: ps') = [⟨some [p.1], .view p.2⟩] ++ updates ps' := rfl
    have hd := (viewParams_inv hp).1
    rw [e, screen_append]
    constructor
    · intro hc
      rw [List.mem_cons, not_or] at hc
      rw [i1 hc.2]
      simp only [Option.none_or]
      refine screen_quiet fun b hb items hf => ?_
      rw [List.mem_singleton.1 hb] at hf
      unfold isFor at hf
      simp [hd] at hf
      exact absurd hf hc.1
    · intro hc
      by_cases hm : c ∈ ids
      · obtain ⟨items, h1, h2⟩ := i2 hm
        exact ⟨items, by rw [h1]; rfl, h2⟩
      · rw [i1 hm]
        have hcd : c = d := by
          rcases List.mem_cons.1 hc with h | h
          · exact h
          · exact absurd h hm
        subst hcd
        refine ⟨p.2, ?_, by rw [hp, ← hd]⟩
        unfold screen isFor
        simp [hd]

/-! ## Rendering depends on the view, its buffers and its selections -/

theorem mem_asVec {v : View} {vi : List ViewItem} (h : v.asVec = .ok vi) {x : ViewItem} (hx : x ∈ vi) :
    match x with | .header b _ => b ∈ v.buffers | .lens b _ => b ∈ v.buffers := by
  unfold View.asVec at h
  obtain ⟨parts, hp, h⟩ := bind_inv h
  cases h
  obtain ⟨part, hpart, hx⟩ := List.mem_flatten.1 hx
  have key : ∀ (v : View) (parts : List (List ViewItem)), (v.mapM fun bg => do
      let f ← LensGroup.focus bg.2
      return ViewItem.header bg.1 f :: bg.2.map (ViewItem.lens bg.1)) = .ok parts → part ∈ parts →
      ∃ bg ∈ v, ∃ f, part = ViewItem.header bg.1 f :: bg.2.map (ViewItem.lens bg.1) := by
    intro v
    induction v with
    | nil => intro parts hp hm; cases hp; cases hm
    | cons y v ih =>
      intro parts hp hm
      rw [List.mapM_cons] at hp
      obtain ⟨z, hz, hp⟩ := bind_inv hp
      obtain ⟨zs, hzs, hp⟩ := bind_inv hp
      cases hp
      rcases List.mem_cons.1 hm with rfl | hm
      · obtain ⟨f, _, hz⟩ := bind_inv hz
        cases hz
        exact ⟨y, List.mem_cons_self .., f, rfl⟩
      · obtain ⟨bg, hbg, r⟩ := ih zs hzs hm
        exact ⟨bg, List.mem_cons_of_mem _ hbg, r⟩
  obtain ⟨bg, hbg, f, rfl⟩ := key v parts hp hpart
  have hb : bg.1 ∈ v.buffers := List.mem_map.2 ⟨bg, hbg, rfl⟩
  rcases List.mem_cons.1 hx with rfl | hx
  · exact hb
  · obtain ⟨g, _, rfl⟩ := List.mem_map.1 hx
    exact hb

theorem foldlM_congr {α β : Type} {f g : β → α → R β} {l : List α} (h : ∀ x ∈ l, ∀ b, f b x = g b x) (b : β) :
    l.foldlM f b = l.foldlM g b := by
  induction l generalizing b with
  | nil => rfl
  | cons x l ih =>
    rw [List.foldlM_cons, List.foldlM_cons, h x (List.mem_cons_self ..) b]
    congr 1
    funext b'
    exact ih (fun y hy => h y (List.mem_cons_of_mem _ hy)) b'

theorem render_congr {seg : Segmentation} {v : View} {buffers buffers' : Assoc Str Buffer}
    {sels : Option (Assoc Str (List Selection))} (h : ∀ b ∈ v.buffers, buffers'.get b = buffers.get b) :
    v.toNotificationParams seg buffers' sels = v.toNotificationParams seg buffers sels := by
  have hat : ∀ b ∈ v.buffers, buffers'.at! b = buffers.at! b := by
    intro b hb; unfold Assoc.at!; rw [h b hb]
  unfold View.toNotificationParams
  cases hv : v.asVec with
  | error p => rfl
  | ok vi =>
    simp only [except_bind_ok]
    refine congrArg (fun x : R (List ViewParamsItem × Option ViewParamsItem) => x >>= fun r =>
      (pure (r.1 ++ r.2.toList) : R (List ViewParamsItem))) (foldlM_congr ?_ _)
    intro x hx acc
    have hm := mem_asVec hv hx
    cases x with
    | header b f =>
      have : headerParams buffers' b f = headerParams buffers b f := by
        cases f with
        | whole => unfold headerParams; rw [hat b hm]
        | range _ _ => rfl
      simp only [this]
    | lens b f =>
      have : lensParams seg buffers' sels b f = lensParams seg buffers sels b f := by
        unfold lensParams; rw [hat b hm]
      simp only [this]

/-- the client sees this view with these selections, in both worlds, and the buffers it sees are the same -/
structure SameFor (c : Nat) (w w' : World) : Prop where
  seen : ∀ ctx, w.clients.map.get c = some ctx → ∃ ctx', w'.clients.map.get c = some ctx' ∧ ctx'.view = ctx.view ∧
    ctx'.selections.get ctx.view.key = ctx.selections.get ctx.view.key ∧
    ∀ b ∈ ctx.view.buffers, w'.buffers.get b = w.buffers.get b

theorem params_same {env' : Env} (he : env'.seg = env.seg) (h : SameFor c w w') {items : List ViewParamsItem}
    (hp : w.viewParams env c = .ok (c, items)) : w'.viewParams env' c = .ok (c, items) := by
  obtain ⟨_, ctx, hc, hr⟩ := viewParams_inv hp
  obtain ⟨ctx', hc', hv, hs, hb⟩ := h.seen ctx hc
  unfold viewParams
  rw [Assoc.at_ok hc', except_bind_ok, hv, hs, he, render_congr hb, hr]
  rfl

/-- an up-to-date screen stays so if nothing it shows changes and no view is sent -/
theorem upToDate_same (h : SameFor c w w') (hs : screen c w'.out = screen c w.out) (u : UpToDate env w c) :
    UpToDate env w' c := by
  obtain ⟨items, h1, h2⟩ := u
  exact ⟨items, hs.trans h1, params_same rfl h h2⟩

theorem sameFor_refl : SameFor c w w := ⟨fun ctx h => ⟨ctx, h, rfl, rfl, fun _ _ => rfl⟩⟩

theorem sameFor_out {o : List Broadcast} : SameFor c w { w with out := o } :=
  ⟨fun ctx h => ⟨ctx, h, rfl, rfl, fun _ _ => rfl⟩⟩

/-- a client that is told is up to date -/
theorem notify_told {ids : List Nat} (h : w.notifyViewUpdate env ids = .ok w') (hc : c ∈ ids) : UpToDate env w' c := by
  obtain ⟨ps, hps, rfl⟩ := notify_ok h
  obtain ⟨items, h1, h2⟩ := (screen_updates (c := c) hps).2 hc
  refine ⟨items, ?_, params_same rfl sameFor_out h2⟩
  show screen c (w.out ++ updates ps) = _
  rw [screen_append, h1]; rfl

theorem notify_keeps {ids : List Nat} (h : w.notifyViewUpdate env ids = .ok w') (u : UpToDate env w c) : UpToDate env w' c := by
  by_cases hc : c ∈ ids
  · exact notify_told h hc
  · obtain ⟨ps, hps, rfl⟩ := notify_ok h
    refine upToDate_same sameFor_out ?_ u
    show screen c (w.out ++ updates ps) = _
    rw [screen_append, (screen_updates (c := c) hps).1 hc]; rfl

theorem sees_mem (hb : w.buffers.has name = true) (h : Sees w c name) : c ∈ w.clientsWithBuffer name := by
  obtain ⟨ctx, hc, hm⟩ := h
  unfold clientsWithBuffer bufferExists
  rw [hb]
  simp only [Bool.true_eq_false, if_false]
  refine List.mem_filterMap.2 ⟨(c, ctx), Assoc.get_mem hc, ?_⟩
  rw [if_pos (View.contains_iff name |>.2 hm)]

/-- a change of one buffer is not seen by clients that do not see it -/
theorem sameFor_set {name : Str} {b : Buffer} (h : ¬ Sees w c name) : SameFor c w { w with buffers := w.buffers.set name b } := by
  refine ⟨fun ctx hc => ⟨ctx, hc, rfl, rfl, fun x hx => ?_⟩⟩
  refine Assoc.get_set_ne _ ?_
  rintro rfl
  exact h ⟨ctx, hc, hx⟩

theorem append_keeps {name : Str} {t : Bytes} (h : w.appendTo env name t = .ok w') (u : UpToDate env w c) :
    UpToDate env w' c := by
  have key : ∀ b : Buffer, ({ w with buffers := w.buffers.set name b } : World).notifyViewUpdate env
      (({ w with buffers := w.buffers.set name b } : World).clientsWithBuffer name) = .ok w' → UpToDate env w' c := by
    intro b h
    by_cases hs : Sees w c name
    · refine notify_told h (sees_mem ?_ hs)
      show Assoc.has (w.buffers.set name b) name = true
      rw [Assoc.has_set]; simp
    · refine notify_keeps h ?_
      exact upToDate_same (sameFor_set hs) rfl u
  unfold appendTo at h
  cases hg : w.buffers.get name with
  | none => rw [hg] at h; exact key _ h
  | some b => rw [hg] at h; exact key _ h

theorem append_told {name : Str} {t : Bytes} (h : w.appendTo env name t = .ok w') (hs : Sees w c name) : UpToDate env w' c := by
  have key : ∀ b : Buffer, ({ w with buffers := w.buffers.set name b } : World).notifyViewUpdate env
      (({ w with buffers := w.buffers.set name b } : World).clientsWithBuffer name) = .ok w' → UpToDate env w' c := by
    intro b h
    refine notify_told h (sees_mem ?_ hs)
    show Assoc.has (w.buffers.set name b) name = true
    rw [Assoc.has_set]; simp
  unfold appendTo at h
  cases hg : w.buffers.get name with
  | none => rw [hg] at h; exact key _ h
  | some b => rw [hg] at h; exact key _ h

theorem debug_keeps {t : Str} (h : w.debug env t = .ok w') (u : UpToDate env w c) : UpToDate env w' c := by
  unfold debug at h
  split at h
  · exact append_keeps h u
  · cases h; exact u

theorem echo_keeps {d : Option Nat} {t : Str} {f : Face} (u : UpToDate env w c) : UpToDate env (w.echo d t f) c := by
  cases d <;>
  · refine upToDate_same sameFor_out ?_ u
    show screen c (w.out ++ _) = _
    rw [screen_append, screen_quiet]
    · rfl
    · intro b hb items _ hn
      rw [List.mem_singleton.1 hb] at hn
      cases hn

/-! ## Adding and deleting views -/

/-- a change of the contexts -/
theorem sameFor_map {f : Nat → ClientContext → ClientContext}
    (hf : ∀ ctx, w.clients.map.get c = some ctx → (f c ctx).view = ctx.view ∧
      (f c ctx).selections.get ctx.view.key = ctx.selections.get ctx.view.key) : SameFor c w (w.mapClients f) := by
  refine ⟨fun ctx hc => ⟨f c ctx, ?_, (hf ctx hc).1, (hf ctx hc).2, fun _ _ => rfl⟩⟩
  show Assoc.get (w.clients.map.mapVals f) c = _
  rw [Assoc.get_mapVals, hc]; rfl

theorem orInsert_has {K V : Type} [DecidableEq K] {m : Assoc K V} {k : K} {v : V} (h : m.has k = true) : m.orInsert k v = m := by
  unfold Assoc.orInsert
  obtain ⟨x, hx⟩ := Assoc.has_iff.1 h
  simp [hx, h]

theorem foldl_orInsert_has (bs : List Str) {m : Assoc Str (List Selection)} (h : ∀ b ∈ bs, m.has b = true) :
    bs.foldl (fun m b => m.orInsert b [Selection.new]) m = m := by
  induction bs with
  | nil => rfl
  | cons b bs ih =>
    rw [List.foldl_cons, orInsert_has (h b (List.mem_cons_self ..))]
    exact ih fun x hx => h x (List.mem_cons_of_mem _ hx)

/-- a view is added: a client that sees another one, or this one with its selections, sees no change -/
theorem addView_keeps {v : View} (h : w.addView v = .ok w')
    (hs : ∀ ctx, w.clients.map.get c = some ctx → ctx.view.key = v.key → HasCtx ctx v.key v) (u : UpToDate env w c) :
    UpToDate env w' c := by
  obtain ⟨st, e, _⟩ := addView_ok w v
  rw [e] at h
  cases h
  refine upToDate_same (w := w) ?_ rfl u
  refine ⟨fun ctx hc => ⟨addSelections v ctx, ?_, rfl, ?_, fun _ _ => rfl⟩⟩
  · show Assoc.get (w.clients.map.mapVals fun _ ctx => addSelections v ctx) c = _
    rw [Assoc.get_mapVals, hc]; rfl
  · rw [addSelections_get]
    split
    · rename_i hk
      obtain ⟨sels, h1, h2⟩ := hs ctx hc hk
      rw [h1, Option.getD_some, foldl_orInsert_has _ h2, hk, h1]
    · rfl

/-- the view of the client -/
def ViewIs (w : World) (c : Nat) (v : View) : Prop := ∃ ctx, w.clients.map.get c = some ctx ∧ ctx.view = v

theorem viewIs_clients (h : w'.clients = w.clients) {v : View} (hv : ViewIs w c v) : ViewIs w' c v := by
  unfold ViewIs; rw [h]; exact hv

theorem viewIs_map {f : Nat → ClientContext → ClientContext} (hf : ∀ ctx, (f c ctx).view = ctx.view) {v : View}
    (hv : ViewIs w c v) : ViewIs (w.mapClients f) c v := by
  obtain ⟨ctx, hc, hv⟩ := hv
  refine ⟨f c ctx, ?_, (hf ctx).trans hv⟩
  show Assoc.get (w.clients.map.mapVals f) c = _
  rw [Assoc.get_mapVals, hc]; rfl

theorem viewIs_addView {v x : View} (h : w.addView x = .ok w') (hv : ViewIs w c v) : ViewIs w' c v := by
  obtain ⟨st, e, _⟩ := addView_ok w x
  rw [e] at h
  cases h
  exact viewIs_map (w := { w with views := { stack := x.key :: st, map := w.views.map.set x.key x } })
    (f := fun _ ctx => addSelections x ctx) (fun _ => rfl) hv

theorem upToDate_view {v : View} (u : UpToDate env w c) (hv : ViewIs w c v) : ∃ ctx, w.clients.map.get c = some ctx ∧ ctx.view = v := hv

/-- the client sees a view that is not the one deleted -/
structure Elsewhere (w : World) (c : Nat) (id : Str) (v : View) : Prop where
  view : ViewIs w c v
  kept : w.views.map.get v.key = some v
  other : v.key ≠ id

theorem dropBuffer_keeps {b : Str} {id : Str} {v : View} (h : dropBuffer env w b = .ok w') (e : Elsewhere w c id v)
    (u : UpToDate env w c) : Elsewhere w' c id v ∧ UpToDate env w' c := by
  unfold dropBuffer at h
  split at h
  · cases h; exact ⟨e, u⟩
  · rename_i hn
    have l := debug_ok h
    refine ⟨⟨viewIs_clients (w := w) l.clients e.view, by rw [l.views]; exact e.kept, e.other⟩, debug_keeps h ?_⟩
    refine upToDate_same (w := w) ?_ rfl u
    refine ⟨fun ctx hc => ⟨ctx, hc, rfl, rfl, fun x hx => ?_⟩⟩
    obtain ⟨ctx', hc', hv⟩ := e.view
    rw [hc] at hc'; cases hc'
    show Assoc.get (w.buffers.del b) x = _
    refine Assoc.get_del_ne ?_
    rintro rfl
    apply hn
    rw [List.any_eq_true]
    refine ⟨(v.key, v), Assoc.get_mem e.kept, ?_⟩
    rw [List.any_eq_true]
    exact ⟨x, by rw [← hv]; exact hx, by simp⟩

/-- the clients of the deleted view are told; the others see no change -/
theorem deleteView_keeps {id : Str} {v : View} {o : Option CoreError} (h : w.deleteView env id = .ok (w', o))
    (hv : ViewIs w c v) (hk : w.views.map.has id = true) (ho : v.key ≠ id → w.views.map.get v.key = some v ∧ UpToDate env w c) :
    UpToDate env w' c := by
  unfold deleteView at h
  split at h
  · rename_i hn
    unfold viewExists at hn
    rw [hk] at hn; cases hn
  obtain ⟨old, hold, h⟩ := bind_inv h
  obtain ⟨w1, h1, h⟩ := bind_inv h
  obtain ⟨w2, h2, h⟩ := bind_inv h
  obtain ⟨w3, h3, h⟩ := bind_inv h
  obtain ⟨latest, hl, h⟩ := bind_inv h
  obtain ⟨w4, h4, h⟩ := bind_inv h
  cases h
  have l1 := debug_ok h1
  have v1 : ViewIs w1 c v := viewIs_clients (w := w) l1.clients hv
  have v2 : ViewIs w2 c v := by
    refine foldlM_ind (P := fun x => ViewIs x c v) h2 (viewIs_map (fun _ => rfl) v1) fun x _ a a' ia ha => ?_
    unfold dropBuffer at ha
    split at ha
    · cases ha; exact ia
    · exact viewIs_clients (w := a) (debug_ok ha).clients ia
  have v3 : ViewIs w3 c v := by
    unfold ensureView at h3
    split at h3
    · refine viewIs_addView h3 ?_
      split
      · exact v2
      · exact v2
    · cases h3; exact v2
  obtain ⟨ctx3, hc3, hv3⟩ := v3
  by_cases hid : v.key = id
  · refine notify_told h4 (List.mem_filterMap.2 ⟨(c, ctx3), Assoc.get_mem hc3, ?_⟩)
    rw [if_pos (by rw [hv3]; exact hid)]
  · obtain ⟨hk, u⟩ := ho hid
    have e1 : Elsewhere w1 c id v := by
      refine ⟨v1, ?_, hid⟩
      rw [l1.views]
      show (w.views.remove id).1.map.get v.key = _
      rcases remove_cases w.views id with ⟨_, e⟩ | ⟨_, e, _⟩
      · rw [e]; exact hk
      · rw [e, Assoc.get_del_ne hid]; exact hk
    have u1 : UpToDate env w1 c := debug_keeps h1 (upToDate_same (w := w) ⟨sameFor_refl.seen⟩ rfl u)
    have u1' : UpToDate env (w1.mapClients fun _ ctx => { ctx with selections := ctx.selections.del id }) c := by
      refine upToDate_same (sameFor_map fun ctx hc => ⟨rfl, ?_⟩) rfl u1
      obtain ⟨ctx', hc', hv'⟩ := v1
      rw [hc] at hc'; cases hc'
      exact Assoc.get_del_ne (by rw [hv']; exact hid)
    have e1' : Elsewhere (w1.mapClients fun _ ctx => { ctx with selections := ctx.selections.del id }) c id v :=
      ⟨viewIs_map (fun _ => rfl) v1, e1.kept, hid⟩
    obtain ⟨e2, u2⟩ : Elsewhere w2 c id v ∧ UpToDate env w2 c :=
      foldlM_ind (P := fun x => Elsewhere x c id v ∧ UpToDate env x c) h2 ⟨e1', u1'⟩
        fun x _ a a' ia ha => dropBuffer_keeps ha ia.1 ia.2
    have hw3 : w3 = w2 := by
      unfold ensureView at h3
      have : w2.views.map.isEmpty = false := by
        cases hm : w2.views.map with
        | nil => have := e2.kept; rw [hm] at this; cases this
        | cons _ _ => rfl
      rw [this] at h3
      cases h3; rfl
    subst hw3
    refine notify_keeps h4 (upToDate_same (sameFor_map fun ctx hc => ?_) rfl u2)
    have e : ctx = ctx3 := by rw [hc] at hc3; injection hc3
    have : ¬ ctx.view.key = id := by rw [e, hv3]; exact hid
    simp [this]

/-! ## Operations -/

theorem modifyView_keeps (i : Inv w) {id : Str} {f : View → View} (h : w.modifyView env id f = .ok w')
    (hf : ∀ v, w.views.map.get id = some v → (f v).key ≠ v.key → (f v).isEmpty = false →
      ∀ ctx, w.clients.map.get c = some ctx → ctx.view.key ≠ (f v).key)
    (u : UpToDate env w c) : UpToDate env w' c := by
  have u0 := u
  obtain ⟨items, _, hp⟩ := u0
  obtain ⟨_, ctx, hc, _⟩ := viewParams_inv hp
  have hcv := i.clients c ctx hc
  unfold modifyView at h
  obtain ⟨v, hv, h⟩ := bind_inv h
  have hv := Assoc.at_inv hv
  have hkey := (i.views id v hv).1
  dsimp only at h
  split at h
  · rename_i hne
    split at h
    · rename_i hemp
      obtain ⟨w1, h1, h⟩ := bind_inv h
      obtain ⟨⟨w2, o⟩, hd, h⟩ := bind_inv h
      have hn := hf v hv (fun e => hne e.symm) hemp ctx hc
      have v1 : ViewIs w1 c ctx.view :=
        viewIs_addView h1 (viewIs_map (fun x => moveSelections_view _ _ x) ⟨ctx, hc, rfl⟩)
      have hvw : w1.views.map = w.views.map.set (f v).key (f v) := by
        obtain ⟨st, e, _⟩ := addView_ok (w.mapClients fun _ => moveSelections v.key (f v).key) (f v)
        rw [e] at h1; cases h1; rfl
      have u2 : UpToDate env w2 c := by
        refine deleteView_keeps hd v1 ?_ fun hk => ⟨?_, ?_⟩
        · rw [hvw, Assoc.has_set, hkey]
          simp [Assoc.has_iff.2 ⟨v, hv⟩]
        · rw [hvw, Assoc.get_set_ne _ hn]; exact hcv
        · refine addView_keeps h1 ?_ ?_
          · intro ctx' hc' hk'
            have hc' : Assoc.get (w.clients.map.mapVals fun _ => moveSelections v.key (f v).key) c = some ctx' := hc'
            rw [Assoc.get_mapVals, hc] at hc'
            cases hc'
            rw [moveSelections_view] at hk'
            exact absurd hk' hn
          · refine upToDate_same (sameFor_map fun x hx => ⟨moveSelections_view _ _ x, ?_⟩) rfl u
            have e : x = ctx := by rw [hc] at hx; injection hx with hx; exact hx.symm
            subst e
            rw [moveSelections_get _ _ _ _ hne]
            rw [if_neg hn, if_neg hk]
      split at h
      · cases h; exact u2
      · cases h
    · obtain ⟨w1, h1, h⟩ := bind_inv h
      cases h1
      obtain ⟨⟨w2, o⟩, hd, h⟩ := bind_inv h
      have u2 : UpToDate env w2 c := deleteView_keeps hd ⟨ctx, hc, rfl⟩ (by rw [hkey]; exact Assoc.has_iff.2 ⟨v, hv⟩)
        fun _ => ⟨hcv, u⟩
      split at h
      · cases h; exact u2
      · cases h
  · cases h; exact u

theorem sameFor_setClient {d : Nat} {ctx : ClientContext} (hd : c ≠ d) {st : List Nat} :
    SameFor c w { w with clients := { stack := st, map := w.clients.map.set d ctx } } :=
  ⟨fun x hx => ⟨x, (Assoc.get_set_ne _ hd).trans hx, rfl, rfl, fun _ _ => rfl⟩⟩

theorem view_keeps {d : Nat} {id : Str} {o : Option CoreError} (h : w.view env d id = .ok (w', o)) (u : UpToDate env w c) :
    UpToDate env w' c := by
  unfold view at h
  split at h
  · obtain ⟨v, hv, h⟩ := bind_inv h
    obtain ⟨ctx, hc, h⟩ := bind_inv h
    obtain ⟨w1, hn, h⟩ := bind_inv h
    cases h
    by_cases hd : c = d
    · exact notify_told hn (by simp [hd])
    · exact notify_keeps hn (upToDate_same (w := w) (sameFor_setClient hd) rfl u)
  · split at h
    · obtain ⟨ctx, hc, h⟩ := bind_inv h
      obtain ⟨w1, hn, h⟩ := bind_inv h
      cases h
      by_cases hd : c = d
      · exact notify_told hn (by simp [hd])
      · exact notify_keeps hn (upToDate_same (w := w) ⟨(sameFor_setClient (st := w.clients.stack) hd).seen⟩ rfl u)
    · cases h; exact u

theorem view_told {id : Str} (h : w.view env c id = .ok (w', none)) : UpToDate env w' c := by
  unfold view at h
  split at h
  · obtain ⟨v, hv, h⟩ := bind_inv h
    obtain ⟨ctx, hc, h⟩ := bind_inv h
    obtain ⟨w1, hn, h⟩ := bind_inv h
    cases h
    exact notify_told hn (by simp)
  · split at h
    · obtain ⟨ctx, hc, h⟩ := bind_inv h
      obtain ⟨w1, hn, h⟩ := bind_inv h
      cases h
      exact notify_told hn (by simp)
    · cases h

theorem viewIs_view {d : Nat} {id : Str} {o : Option CoreError} (h : w.view env d id = .ok (w', o)) (hd : c ≠ d) {v : View}
    (hv : ViewIs w c v) : ViewIs w' c v := by
  obtain ⟨x, hx, hv⟩ := hv
  unfold view at h
  split at h
  · obtain ⟨_, _, h⟩ := bind_inv h
    obtain ⟨ctx, hc, h⟩ := bind_inv h
    obtain ⟨w1, hn, h⟩ := bind_inv h
    cases h
    obtain ⟨_, _, rfl⟩ := notify_ok hn
    exact ⟨x, (Assoc.get_set_ne _ hd).trans hx, hv⟩
  · split at h
    · obtain ⟨ctx, hc, h⟩ := bind_inv h
      obtain ⟨w1, hn, h⟩ := bind_inv h
      cases h
      obtain ⟨_, _, rfl⟩ := notify_ok hn
      exact ⟨x, (Assoc.get_set_ne _ hd).trans hx, hv⟩
    · cases h; exact ⟨x, hx, hv⟩

/-- opening for edition changes at most the buffer, and says so if a client may see it -/
theorem open_keeps (i : Inv w) {name : Str} {s b : Bool} (h : w.openForEdit env name s = .ok (w', b)) (u : UpToDate env w c) :
    w'.clients = w.clients ∧ w'.views = w.views ∧ w'.buffers.has name = true ∧
      ((b = true ∧ Sees w c name) ∨ UpToDate env w' c) := by
  have fresh : w.buffers.get name = none → ¬ Sees w c name := by
    rintro hg ⟨ctx, hc, hm⟩
    have := (i.views _ _ (i.clients c ctx hc)).2.2.2 name hm
    rw [Assoc.has_iff, hg] at this
    obtain ⟨_, this⟩ := this
    cases this
  unfold openForEdit at h
  split at h
  · rename_i hg
    cases h
    refine ⟨rfl, rfl, ?_, .inr (upToDate_same (w := w) (sameFor_set (fresh hg)) rfl u)⟩
    show Assoc.has (w.buffers.set name _) name = true
    rw [Assoc.has_set]; simp
  · rename_i hg
    cases h
    exact ⟨rfl, rfl, Assoc.has_iff.2 ⟨_, hg⟩, .inr u⟩
  · rename_i old hg
    obtain ⟨r, hl, h⟩ := bind_inv h
    have hh : Assoc.has (w.buffers.set name r.1) name = true := by rw [Assoc.has_set]; simp
    dsimp only at h
    split at h
    · obtain ⟨w1, hd, h⟩ := bind_inv h
      cases h
      have l := debug_ok hd
      refine ⟨l.clients, l.views, l.keeps name hh, ?_⟩
      by_cases hs : Sees w c name
      · exact .inl ⟨rfl, hs⟩
      · exact .inr (debug_keeps hd (upToDate_same (w := w) (sameFor_set hs) rfl u))
    · rename_i hr
      cases h
      refine ⟨rfl, rfl, hh, .inr (upToDate_same (w := w) ⟨fun ctx hc => ⟨ctx, hc, rfl, rfl, fun x hx => ?_⟩⟩ rfl u)⟩
      have hsame : r.1 = old := by
        unfold Buffer.loadFromDisk at hl
        split at hl
        · cases hl; rfl
        · split at hl
          · cases hl; rfl
          · obtain ⟨_, _, hl⟩ := bind_inv hl
            obtain ⟨_, _, hl⟩ := bind_inv hl
            obtain ⟨_, _, hl⟩ := bind_inv hl
            cases hl
            exact absurd rfl hr
      show Assoc.get (w.buffers.set name r.1) x = _
      rw [Assoc.get_set, hsame]
      split
      · rename_i e; rw [e, hg]
      · rfl
  · rename_i hg
    obtain ⟨w1, ho, h⟩ := bind_inv h
    cases h
    obtain ⟨b, hb, rfl⟩ := openFile_ok ho
    refine ⟨rfl, rfl, ?_, .inr (upToDate_same (w := w) (sameFor_set (fresh hg)) rfl u)⟩
    show Assoc.has (w.buffers.set name _) name = true
    rw [Assoc.has_set]; simp

theorem edit_told {name : Str} {s : Bool} (h : w.edit env c name s = .ok w') : UpToDate env w' c := by
  unfold edit at h
  obtain ⟨r, ho, h⟩ := bind_inv h
  obtain ⟨w2, ha, h⟩ := bind_inv h
  obtain ⟨⟨w3, o⟩, hv, h⟩ := bind_inv h
  dsimp only at h
  split at h
  · cases h
  · have u3 := view_told hv
    obtain ⟨w4, hd, h⟩ := bind_inv h
    have u4 := debug_keeps hd u3
    split at h
    · exact notify_keeps h u4
    · cases h; exact u4

theorem edit_keeps (i : Inv w) (sl : Sel (fun _ => False) w) {d : Nat} {name : Str} (hn : '{' ∉ name) {s : Bool}
    (h : w.edit env d name s = .ok w') (u : UpToDate env w c) : UpToDate env w' c := by
  by_cases hcd : c = d
  · subst hcd; exact edit_told h
  have u0 := u
  obtain ⟨items, _, hp⟩ := u0
  obtain ⟨_, ctx, hc, _⟩ := viewParams_inv hp
  unfold edit at h
  obtain ⟨⟨w1, b⟩, ho, h⟩ := bind_inv h
  obtain ⟨w2, ha, h⟩ := bind_inv h
  obtain ⟨⟨w3, o⟩, hv, h⟩ := bind_inv h
  dsimp only at h ha hv
  split at h
  · cases h
  obtain ⟨w4, hd, h⟩ := bind_inv h
  obtain ⟨k1, k2, k3, k4⟩ := open_keeps i ho u
  have v1 : ViewIs w1 c ctx.view := by rw [ViewIs, k1]; exact ⟨ctx, hc, rfl⟩
  have v4 : ViewIs w4 c ctx.view :=
    viewIs_clients (w := w3) (debug_ok hd).clients (viewIs_view hv hcd (viewIs_addView ha v1))
  have hb4 : w4.buffers.has name = true := by
    refine (debug_ok hd).keeps name ?_
    have hb2 : w2.buffers = w1.buffers := by
      obtain ⟨st, e, _⟩ := addView_ok w1 (View.forBuffer name)
      rw [e] at ha; cases ha; rfl
    have hb3 : w3.buffers = w2.buffers := by
      unfold view at hv
      split at hv
      · obtain ⟨_, _, hv⟩ := bind_inv hv
        obtain ⟨_, _, hv⟩ := bind_inv hv
        obtain ⟨_, hn, hv⟩ := bind_inv hv
        cases hv
        obtain ⟨_, _, rfl⟩ := notify_ok hn
        rfl
      · split at hv
        · obtain ⟨_, _, hv⟩ := bind_inv hv
          obtain ⟨_, hn, hv⟩ := bind_inv hv
          cases hv
          obtain ⟨_, _, rfl⟩ := notify_ok hn
          rfl
        · cases hv
    rw [hb3, hb2]; exact k3
  rcases k4 with ⟨rfl, hs⟩ | u1
  · -- it sees the buffer and is told
    obtain ⟨x, hx, hm⟩ := hs
    rw [hc] at hx; cases hx
    rw [if_pos rfl] at h
    refine notify_told h (List.mem_filter.2 ⟨sees_mem hb4 ?_, by simpa using hcd⟩)
    obtain ⟨ctx4, hc4, hv4⟩ := v4
    exact ⟨ctx4, hc4, by rw [hv4]; exact hm⟩
  · have u2 : UpToDate env w2 c := by
      refine addView_keeps ha (fun x hx hk => ?_) u1
      have hx : w.clients.map.get c = some x := by rw [← k1]; exact hx
      rw [hc] at hx; cases hx
      have hreg := i.clients c ctx hc
      have e : ctx.view = View.forBuffer name := by
        obtain ⟨_, wf, _, hbs⟩ := i.views _ _ hreg
        refine key_inj (fun b hm => i.names b (hbs b hm)) (fun b hm => ?_) hk
        have hm : b ∈ [name] := hm
        rw [List.mem_singleton.1 hm]; exact hn
      rw [← e]
      exact sl.all c ctx _ _ hc hreg (fun h => h)
    have u4 := debug_keeps hd (view_keeps hv u2)
    split at h
    · exact notify_keeps h u4
    · cases h; exact u4

theorem move_keeps {d : Nat} {dir : CursorTarget} {ext : Bool} (h : w.moveCursor env d dir ext = .ok w')
    (u : UpToDate env w c) : UpToDate env w' c := by
  unfold moveCursor at h
  obtain ⟨ctx, hc, h⟩ := bind_inv h
  obtain ⟨sels, hs, h⟩ := bind_inv h
  obtain ⟨sels', hm, h⟩ := bind_inv h
  dsimp only at h
  by_cases hd : c = d
  · subst hd
    split at h
    · exact notify_told h (by simp)
    · rename_i he
      have he : sels' = sels := Classical.not_not.1 he
      cases h
      refine upToDate_same (w := w) ⟨fun x hx => ?_⟩ rfl u
      have e : x = ctx := by rw [Assoc.at_inv hc] at hx; injection hx with hx; exact hx.symm
      subst e
      refine ⟨{ x with selections := x.selections.set x.view.key sels' }, Assoc.get_set_self .., rfl, ?_, fun _ _ => rfl⟩
      rw [Assoc.get_set_self, he, Assoc.at_inv hs]
  · split at h
    · exact notify_keeps h (upToDate_same (w := w) (sameFor_setClient hd) rfl u)
    · cases h
      exact upToDate_same (w := w) (sameFor_setClient hd) rfl u

theorem deleteOne_nothing {t t' : PieceTable} {sels : List Selection} {del : List Bytes}
    (h : sels.foldlM (deleteOne env) (t, []) = .ok (t', del)) : del = [] → t' = t := by
  refine foldlM_ind (P := fun st => st.2 = [] → st.1 = t) h (fun _ => rfl) fun x _ a a' ia ha => ?_
  unfold deleteOne at ha
  obtain ⟨r, _, ha⟩ := bind_inv ha
  obtain ⟨tx, _, ha⟩ := bind_inv ha
  split at ha
  · obtain ⟨t2, _, ha⟩ := bind_inv ha
    cases ha
    intro he
    simp at he
  · cases ha; exact ia

theorem deleteSelection_keeps {d : Nat} {r : List Bytes} (h : w.deleteSelection env d = .ok (w', r))
    (ht : Tells w c (.deleteSelection d)) (u : UpToDate env w c) : UpToDate env w' c := by
  unfold deleteSelection at h
  obtain ⟨ctx, hc, h⟩ := bind_inv h
  obtain ⟨sels, hs, h⟩ := bind_inv h
  obtain ⟨⟨w1, del, mod⟩, h1, h⟩ := bind_inv h
  obtain ⟨w2, h2, h⟩ := bind_inv h
  have hc := Assoc.at_inv hc
  have hs := Assoc.at_inv hs
  obtain ⟨p1, p2, p3, p4⟩ : w1.clients = w.clients ∧ w1.out = w.out ∧
      (c ≠ d → ∀ n, Sees w c n → w1.buffers.get n = w.buffers.get n) ∧
      (del = [] → mod = [] ∧ ∀ n, Sees w c n → w1.buffers.get n = w.buffers.get n) := by
    refine foldlM_ind (P := fun (st : World × List Bytes × List Str) => st.1.clients = w.clients ∧ st.1.out = w.out ∧
      (c ≠ d → ∀ n, Sees w c n → st.1.buffers.get n = w.buffers.get n) ∧
      (st.2.1 = [] → st.2.2 = [] ∧ ∀ n, Sees w c n → st.1.buffers.get n = w.buffers.get n)) h1
      ⟨rfl, rfl, fun _ _ _ => rfl, fun _ => ⟨rfl, fun _ _ => rfl⟩⟩ fun x hx st st' ih ha => ?_
    obtain ⟨q1, q2, q3, q4⟩ := ih
    unfold deleteStep at ha
    obtain ⟨b, hb, ha⟩ := bind_inv ha
    obtain ⟨⟨b', dl⟩, hr, ha⟩ := bind_inv ha
    cases ha
    have hb := unwrap_inv hb
    have hsel : SelectsIn w d x.1 :=
      ⟨ctx, sels, hc, hs, Assoc.mem_keys.1 (List.mem_map.2 ⟨x, hx, rfl⟩)⟩
    refine ⟨q1, q2, fun hcd n hn => ?_, fun he => ?_⟩
    · show Assoc.get (st.1.buffers.set x.1 b') n = _
      rw [Assoc.get_set_ne _ (by rintro rfl; exact hcd (ht _ hsel hn).1)]
      exact q3 hcd n hn
    · have he' : st.2.1 = [] ∧ dl = [] := by simpa using he
      clear he
      obtain ⟨m1, m2⟩ := q4 he'.1
      refine ⟨?_, fun n hn => ?_⟩
      · show (if dl = [] then st.2.2 else _) = []
        rw [if_pos he'.2]; exact m1
      · show Assoc.get (st.1.buffers.set x.1 b') n = _
        rw [Assoc.get_set]
        split
        · rename_i e
          subst e
          have hb0 : w.buffers.get x.1 = some b := by rw [← m2 x.1 hn]; exact hb
          have hne := (ht _ hsel hn).2 b hb0
          unfold deleteInBuffer at hr
          obtain ⟨⟨t, dl'⟩, h3, hr⟩ := bind_inv hr
          cases hr
          have ht := deleteOne_nothing h3 he'.2
          rw [hb0, ht, hne]
          rfl
        · exact m2 n hn
  have c2 : ∀ e : Nat, e ≠ d → w2.clients.map.get e = w1.clients.map.get e := by
    intro e hed
    refine foldlM_ind (P := fun x => x.clients.map.get e = w1.clients.map.get e) h2 rfl fun x _ a a' ia ha => ?_
    unfold clampSelections at ha
    obtain ⟨b, hb, ha⟩ := bind_inv ha
    obtain ⟨m, hm, ha⟩ := bind_inv ha
    obtain ⟨ctx, hc, ha⟩ := bind_inv ha
    obtain ⟨ss, hs, ha⟩ := bind_inv ha
    obtain ⟨sels, hl, ha⟩ := bind_inv ha
    cases ha
    exact (Assoc.get_set_ne _ hed).trans ia
  have o2 : w2.out = w1.out ∧ w2.buffers = w1.buffers := by
    refine foldlM_ind (P := fun x => x.out = w1.out ∧ x.buffers = w1.buffers) h2 ⟨rfl, rfl⟩ fun x _ a a' ia ha => ?_
    unfold clampSelections at ha
    obtain ⟨b, hb, ha⟩ := bind_inv ha
    obtain ⟨m, hm, ha⟩ := bind_inv ha
    obtain ⟨ctx, hc, ha⟩ := bind_inv ha
    obtain ⟨ss, hs, ha⟩ := bind_inv ha
    obtain ⟨sels, hl, ha⟩ := bind_inv ha
    cases ha
    exact ia
  by_cases hcd : c = d
  · subst hcd
    split at h
    · obtain ⟨w3, h3, h⟩ := bind_inv h
      cases h
      exact notify_told h3 (by simp)
    · rename_i hdel
      cases h
      obtain ⟨hmod, hsame⟩ := p4 (Classical.not_not.1 hdel)
      subst hmod
      cases h2
      refine upToDate_same (w := w) ⟨fun x hx => ⟨x, by rw [p1]; exact hx, rfl, rfl, fun n hn => hsame n ⟨x, hx, hn⟩⟩⟩ (by rw [p2]) u
  · have u2 : UpToDate env w2 c := by
      refine upToDate_same (w := w) ⟨fun x hx => ⟨x, by rw [c2 c hcd, p1]; exact hx, rfl, rfl, fun n hn => ?_⟩⟩ (by rw [o2.1, p2]) u
      rw [o2.2]; exact p3 hcd n ⟨x, hx, hn⟩
    split at h
    · obtain ⟨w3, h3, h⟩ := bind_inv h
      cases h
      exact notify_keeps h3 u2
    · cases h; exact u2

/-- an operation that tells the client keeps its screen up to date, unless it opens a buffer -/
theorem op_keeps' (i : Inv w) {op : CoreOp} (hn1 : ∀ d n s, op ≠ .edit d n s) (hn2 : ∀ d n x, op ≠ .scratch d n x) (ht : Tells w c op)
    (h : op.run env w = .ok w') (u : UpToDate env w c) : UpToDate env w' c := by
  cases op with
  | join id x =>
    have ht : c ≠ id := ht
    have h : w.addClient env id x = .ok w' := h
    unfold addClient at h
    obtain ⟨context, hctx, h⟩ := bind_inv h
    obtain ⟨r, hins, h⟩ := bind_inv h
    obtain ⟨w1, hd, h⟩ := bind_inv h
    cases h
    obtain ⟨st, e, _⟩ := StackMap.insert_ok w.clients id context
    rw [e] at hins
    cases hins
    have u1 := debug_keeps hd (upToDate_same (w := w) (sameFor_setClient ht) rfl u)
    refine upToDate_same (w := w1) ⟨sameFor_refl.seen⟩ ?_ u1
    show screen c (w1.out ++ _) = _
    rw [screen_append, screen_quiet]
    · rfl
    · intro b hb items _ hn
      rw [List.mem_singleton.1 hb] at hn
      cases hn
  | leave id =>
    have ht : c ≠ id := ht
    refine debug_keeps (w := { w with clients := (w.clients.remove id).1 }) h ?_
    refine upToDate_same (w := w) ⟨fun x hx => ⟨x, ?_, rfl, rfl, fun _ _ => rfl⟩⟩ rfl u
    show (w.clients.remove id).1.map.get c = some x
    rcases remove_cases w.clients id with ⟨_, e⟩ | ⟨_, e, _⟩
    · rw [e]; exact hx
    · rw [e, Assoc.get_del_ne ht]; exact hx
  | edit d name x => exact absurd rfl (hn1 d name x)
  | scratch d name content => exact absurd rfl (hn2 d name content)
  | view d id => obtain ⟨⟨w1, o⟩, hr, rfl⟩ := map_inv h; exact view_keeps hr u
  | viewDelete d =>
    have h : w.deleteCurrentView env d = .ok w' := h
    unfold deleteCurrentView at h
    obtain ⟨ctx, hc, h⟩ := bind_inv h
    obtain ⟨⟨w1, o⟩, hd, h⟩ := bind_inv h
    have u0 := u
    obtain ⟨items, _, hp⟩ := u0
    obtain ⟨_, x, hx, _⟩ := viewParams_inv hp
    have u1 : UpToDate env w1 c := deleteView_keeps hd ⟨x, hx, rfl⟩
      (Assoc.has_iff.2 ⟨_, i.clients d ctx (Assoc.at_inv hc)⟩) fun _ => ⟨i.clients c x hx, u⟩
    dsimp only at h
    split at h
    · cases h; exact u1
    · cases h
  | viewAdd d b =>
    obtain ⟨r, hr, rfl⟩ := map_inv h
    unfold addToCurrentView at hr
    split at hr
    · cases hr; exact u
    · obtain ⟨ctx, hc, hr⟩ := bind_inv hr
      obtain ⟨w1, hm, hr⟩ := bind_inv hr
      cases hr
      have hc := Assoc.at_inv hc
      refine modifyView_keeps i hm (fun v hv hne _ x hx he => ?_) u
      have hv' := i.clients d ctx hc
      rw [hv] at hv'; cases hv'
      rcases ht x hx with hh | ⟨y, hy, hk⟩
      · exact hh ⟨ctx, hc, he.symm⟩
      · rw [hc] at hy; cases hy
        have hk : ctx.view.key = x.view.key := hk
        exact hne (by rw [hk]; exact he.symm)
  | viewRemove d b =>
    obtain ⟨r, hr, rfl⟩ := map_inv h
    unfold removeFromCurrentView at hr
    split at hr
    · cases hr; exact u
    · obtain ⟨ctx, hc, hr⟩ := bind_inv hr
      obtain ⟨w1, hm, hr⟩ := bind_inv hr
      cases hr
      have hc := Assoc.at_inv hc
      refine modifyView_keeps i hm (fun v hv hne _ x hx he => ?_) u
      have hv' := i.clients d ctx hc
      rw [hv] at hv'; cases hv'
      split at he
      · rename_i hcon
        rcases ht x hx with hh | ⟨y, hy, hk⟩
        · exact hh ⟨ctx, hc, he.symm⟩
        · rw [hc] at hy; cases hy
          have hk : ctx.view.key = x.view.key := hk
          rw [if_pos hcon] at hne
          exact hne (by rw [hk]; exact he.symm)
      · rename_i hcon
        rw [if_neg hcon] at hne
        exact hne rfl
  | move d dir ext => exact move_keeps h u
  | deleteSelection d => obtain ⟨⟨w1, r⟩, hr, rfl⟩ := map_inv h; exact deleteSelection_keeps hr ht u
  | append b x xs => exact append_keeps h u
  | debug x => exact debug_keeps h u
  | message d x =>
    have h : w.message env d x = .ok w' := h
    unfold message at h
    obtain ⟨w1, h1, h⟩ := bind_inv h
    cases h
    exact echo_keeps (append_keeps h1 u)
  | error d t1 t2 =>
    have h : w.error env d t1 t2 = .ok w' := h
    unfold error at h
    obtain ⟨w1, h1, h⟩ := bind_inv h
    cases h
    exact echo_keeps (append_keeps h1 u)
  | notify d n =>
    have h : (.ok (w.notify d n) : R World) = .ok w' := h
    injection h with h
    subst h
    refine upToDate_same (w := w) ⟨sameFor_refl.seen⟩ ?_ u
    show screen c (w.out ++ _) = _
    rw [screen_append, screen_quiet]
    · rfl
    · intro b hb items _ hn
      rw [List.mem_singleton.1 hb] at hn
      exact ht items hn

/-- an operation that tells the client keeps its screen up to date -/
theorem op_keeps (i : Inv w) (sl : Sel (fun _ => False) w) {op : CoreOp} (hn : CleanName w op) (ht : Tells w c op)
    (h : op.run env w = .ok w') (u : UpToDate env w c) : UpToDate env w' c := by
  cases op with
  | edit d name x => exact edit_keeps i sl (hn name rfl) h u
  | scratch d name content =>
    have h : (w.openScratch name content).edit env d name true = .ok w' := h
    rcases ht with rfl | hns
    · exact edit_told h
    · have i1 : Inv (w.openScratch name content) := inv_setBuffer i (hn name rfl) _ _
      exact edit_keeps i1 (sel_same sl rfl rfl) (hn name rfl) h (upToDate_same (w := w) (sameFor_set hns) rfl u)
  | _ => exact op_keeps' i (by simp) (by simp) ht h u

end World
end Ced

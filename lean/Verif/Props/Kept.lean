import Verif.Spec.Kept
import Verif.Props.Roaming

/-!
# Selections stay where they are (C92)
-/

namespace Ced.Props
open Spec

/-- the selections in the view `k` are carried over -/
def KeepsAt (k : Str) (x x' : ClientContext) : Prop :=
  ∀ m, x.selections.get k = some m → ∃ m', x'.selections.get k = some m' ∧ Carried m m'

theorem carried_refl (m : Assoc Str (List Selection)) : Carried m m := fun _ => .inl rfl

theorem carried_trans {a b c : Assoc Str (List Selection)} (h : Carried a b) (h' : Carried b c) : Carried a c := by
  intro n
  rcases h n with h1 | ⟨h1, h2⟩ <;> rcases h' n with h3 | ⟨h3, h4⟩
  · exact .inl (h3.trans h1)
  · exact .inr ⟨h1 ▸ h3, h4⟩
  · exact .inr ⟨h1, h3.trans h2⟩
  · rw [h2] at h3; cases h3

theorem carried_fresh (bs : List Str) (m : Assoc Str (List Selection)) :
    Carried m (bs.foldl (fun m b => m.orInsert b [Selection.new]) m) := by
  intro n
  rw [World.get_foldl_orInsert]
  cases h : Assoc.get m n with
  | some l => exact .inl rfl
  | none =>
    by_cases hb : n ∈ bs
    · right; exact ⟨rfl, by simp only [if_pos hb]; rfl⟩
    · left; simp only [if_neg hb]

theorem keepsAt_refl (k : Str) (x : ClientContext) : KeepsAt k x x := fun m h => ⟨m, h, carried_refl m⟩

theorem keepsAt_eq {k : Str} {x x' : ClientContext} (h : x'.selections = x.selections) : KeepsAt k x x' :=
  fun m hm => ⟨m, by rw [h]; exact hm, carried_refl m⟩

theorem keepsAt_trans {k : Str} {x y z : ClientContext} (h : KeepsAt k x y) (h' : KeepsAt k y z) : KeepsAt k x z := by
  intro m hm
  obtain ⟨m1, h1, c1⟩ := h m hm
  obtain ⟨m2, h2, c2⟩ := h' m1 h1
  exact ⟨m2, h2, carried_trans c1 c2⟩

theorem keepsAt_add (k : Str) (v : View) (x : ClientContext) : KeepsAt k x (World.addSelections v x) := by
  intro m hm
  rw [World.addSelections_get]
  split
  · rename_i e
    subst e
    rw [hm]
    exact ⟨_, rfl, carried_fresh _ m⟩
  · exact ⟨m, hm, carried_refl m⟩

theorem keepsAt_close {k id : Str} (hk : k ≠ id) (extra : Bool) (latest : View) (x : ClientContext) :
    KeepsAt k x (World.afterClose id extra latest x) := by
  have h1 : KeepsAt k x { x with selections := x.selections.del id } := by
    intro m hm
    refine ⟨m, ?_, carried_refl m⟩
    show Assoc.get (x.selections.del id) k = some m
    rw [Assoc.get_del, if_neg hk]; exact hm
  refine keepsAt_trans ?_ (keepsAt_eq (World.afterClose_selections id extra latest x))
  unfold World.stripped
  cases extra
  · exact h1
  · exact keepsAt_trans h1 (keepsAt_add _ _ _)

theorem keepsAt_moveSel {k o n : Str} (hon : o ≠ n) (h1 : k ≠ o) (h2 : k ≠ n) (x : ClientContext) :
    KeepsAt k x (World.moveSelections o n x) := by
  intro m hm
  rw [World.moveSelections_get _ _ _ _ hon, if_neg h2, if_neg h1]
  exact ⟨m, hm, carried_refl m⟩

/-- every client keeps its selections in the view `k` -/
def AllKeep (k : Str) (w w' : World) : Prop :=
  ∀ d x, w.clients.map.get d = some x → ∃ x', w'.clients.map.get d = some x' ∧ KeepsAt k x x'

theorem allKeep_map {k : Str} {w w' : World} {f : Nat → ClientContext → ClientContext}
    (h : w'.clients.map = w.clients.map.mapVals f) (hf : ∀ d x, KeepsAt k x (f d x)) : AllKeep k w w' := by
  intro d x hx
  refine ⟨f d x, ?_, hf d x⟩
  rw [h, Assoc.get_mapVals, hx]; rfl

theorem allKeep_trans {k : Str} {a b c : World} (h : AllKeep k a b) (h' : AllKeep k b c) : AllKeep k a c := by
  intro d x hx
  obtain ⟨y, hy, k1⟩ := h d x hx
  obtain ⟨z, hz, k2⟩ := h' d y hy
  exact ⟨z, hz, keepsAt_trans k1 k2⟩

theorem allKeep_same {k : Str} {w w' : World} (h : w'.clients = w.clients) : AllKeep k w w' :=
  fun d x hx => ⟨x, by rw [h]; exact hx, keepsAt_refl k x⟩

theorem allKeep_edit {w w' : World} {env : Env} {c : Nat} {name : Str} {scratch : Bool} (k : Str)
    (h : w.edit env c name scratch = .ok w') : AllKeep k w w' := by
  unfold World.edit at h
  obtain ⟨⟨w1, n⟩, h1, h⟩ := bind_inv h
  obtain ⟨w2, h2, h⟩ := bind_inv h
  obtain ⟨⟨w3, e⟩, h3, h⟩ := bind_inv h
  obtain ⟨hc1, _⟩ := World.openForEdit_same h1
  obtain ⟨st, e2, _⟩ := World.addView_ok w1 (View.forBuffer name)
  have e2 := e2.symm.trans h2
  cases e2
  obtain ⟨he, _, _, ⟨x, x3, hx, hx3, _, hsel⟩, hoth⟩ := C31_by_identifier (Assoc.get_set_self _ _ _) h3
  subst he
  dsimp only at h
  obtain ⟨w4, h4, h⟩ := bind_inv h
  have l := World.debug_ok h4
  have hw' : w'.clients = w4.clients := by
    split at h
    · obtain ⟨p, _, rfl⟩ := World.notify_ok h
      rfl
    · cases h; rfl
  refine allKeep_trans (allKeep_same hc1) (allKeep_trans (b := { w1 with
      clients := { w1.clients with map := w1.clients.map.mapVals fun _ ctx => World.addSelections (View.forBuffer name) ctx } })
    (allKeep_map rfl fun _ x => keepsAt_add k _ x) (allKeep_trans (b := w3) ?_ (allKeep_same (hw'.trans l.clients))))
  intro d y hy
  by_cases hd : d = c
  · subst hd
    have hx : Assoc.get (w1.clients.map.mapVals fun _ ctx => World.addSelections (View.forBuffer name) ctx) d = some x := hx
    have hy : Assoc.get (w1.clients.map.mapVals fun _ ctx => World.addSelections (View.forBuffer name) ctx) d = some y := hy
    rw [hx] at hy
    cases hy
    exact ⟨x3, hx3, keepsAt_eq hsel⟩
  · exact ⟨y, by rw [hoth d hd]; exact hy, keepsAt_refl k y⟩

theorem allKeep_view {w w' : World} {env : Env} {c : Nat} {id : Str} {e : Option CoreError} (k : Str)
    (h : w.view env c id = .ok (w', e)) : AllKeep k w w' := by
  have set : ∀ {w1 : World} {ctx : ClientContext} {v : View}, w.clients.map.get c = some ctx →
      w1.clients.map = w.clients.map.set c { ctx with view := v } → AllKeep k w w1 := by
    intro w1 ctx v hc e d x hx
    rw [e, Assoc.get_set]
    by_cases hd : d = c
    · subst hd
      rw [hc] at hx; cases hx
      exact ⟨_, if_pos rfl, keepsAt_eq rfl⟩
    · exact ⟨x, by rw [if_neg hd]; exact hx, keepsAt_refl k x⟩
  unfold World.view at h
  split at h
  · obtain ⟨v, _, h⟩ := bind_inv h
    obtain ⟨ctx, hc, h⟩ := bind_inv h
    obtain ⟨w1, h1, h⟩ := bind_inv h
    cases h
    obtain ⟨p, _, rfl⟩ := World.notify_ok h1
    exact set (unwrap_inv hc) rfl
  · split at h
    · obtain ⟨ctx, hc, h⟩ := bind_inv h
      obtain ⟨w1, h1, h⟩ := bind_inv h
      cases h
      obtain ⟨p, _, rfl⟩ := World.notify_ok h1
      exact set (unwrap_inv hc) rfl
    · cases h; exact allKeep_same rfl

theorem allKeep_deleteView {w w' : World} (i : World.Inv w) {env : Env} {id : Str} {e : Option CoreError} {k : Str} (hk : k ≠ id)
    (h : w.deleteView env id = .ok (w', e)) : AllKeep k w w' := by
  rcases World.deleteView_ok i.mode i.cnodup h with ⟨_, _, rfl⟩ | ⟨v, _, _, _, hcl⟩
  · exact allKeep_same rfl
  · obtain ⟨latest, _, hm⟩ := hcl.latest
    exact allKeep_map hm fun _ x => keepsAt_close hk _ _ x

/-- What happens to the selections when a view is replaced by another one: those in other views stay, those in the replaced view
are carried over to the new one. -/
theorem modifyView_keep {w w' : World} (i : World.Inv w) {env : Env} {v : View} {f : View → View}
    (hv : w.views.map.get v.key = some v)
    (hf : View.WF (f v) ∧ ∀ b ∈ (f v).buffers, w.buffers.has b = true)
    (h : w.modifyView env v.key f = .ok w') :
    (∀ k, k ≠ v.key → k ≠ (f v).key → AllKeep k w w') ∧
    (f v ≠ [] → ∀ d x, w.clients.map.get d = some x → ∃ x', w'.clients.map.get d = some x' ∧
      ∀ m, x.selections.get v.key = some m → ∃ m', x'.selections.get (f v).key = some m' ∧ Carried m m') := by
  unfold World.modifyView at h
  obtain ⟨v0, hv0, h⟩ := bind_inv h
  have hv0 := Assoc.at_inv hv0
  rw [hv] at hv0
  cases hv0
  obtain ⟨hwf, hb⟩ := hf
  dsimp only at h
  split at h
  · rename_i hne
    split at h
    · rename_i hem
      obtain ⟨w1, h1, h⟩ := bind_inv h
      obtain ⟨r, hd, h⟩ := bind_inv h
      have e : w' = r.1 := by
        split at h
        · cases h; rfl
        · cases h
      have i0 : World.Inv (w.mapClients fun _ => World.moveSelections v.key (f v).key) :=
        World.inv_mapClients i fun _ ctx => World.moveSelections_view _ _ ctx
      have i1 := World.inv_addView i0 hwf (by intro e; rw [e] at hem; cases hem) hb h1
      obtain ⟨st, e1, _⟩ := World.addView_ok (w.mapClients fun _ => World.moveSelections v.key (f v).key) (f v)
      rw [e1] at h1
      cases h1
      subst e
      constructor
      · intro k hk hk'
        refine allKeep_trans (b := w.mapClients fun _ => World.moveSelections v.key (f v).key)
          (allKeep_map rfl fun _ x => keepsAt_moveSel hne hk hk' x) (allKeep_trans (allKeep_map (k := k) rfl
            fun _ x => keepsAt_add k _ x) (allKeep_deleteView i1 hk hd))
      · intro _ d x hx
        have step : AllKeep (f v).key (w.mapClients fun _ => World.moveSelections v.key (f v).key) r.1 :=
          allKeep_trans (allKeep_map rfl fun _ x => keepsAt_add _ _ x) (allKeep_deleteView i1 (Ne.symm hne) hd)
        obtain ⟨x', hx', hk⟩ := step d (World.moveSelections v.key (f v).key x)
          (by show Assoc.get (w.clients.map.mapVals fun _ => World.moveSelections v.key (f v).key) d = _
              rw [Assoc.get_mapVals, hx]; rfl)
        refine ⟨x', hx', fun m hm => hk m ?_⟩
        rw [World.moveSelections_get _ _ _ _ hne, if_pos rfl, hm]
        rfl
    · rename_i hem
      obtain ⟨w1, h1, h⟩ := bind_inv h
      cases h1
      obtain ⟨r, hd, h⟩ := bind_inv h
      have e : w' = r.1 := by
        split at h
        · cases h; rfl
        · cases h
      subst e
      refine ⟨fun k hk _ => allKeep_deleteView i hk hd, fun hn => ?_⟩
      cases hfv : f v with
      | nil => exact absurd hfv hn
      | cons => rw [hfv] at hem; exact absurd rfl hem
  · rename_i hne
    cases h
    refine ⟨fun k _ _ => allKeep_same rfl, fun _ d x hx => ⟨x, hx, fun m hm => ⟨m, ?_, carried_refl m⟩⟩⟩
    rw [← Classical.not_not.1 hne]; exact hm

theorem keep_clamp {w w' : World} {c : Nat} {name : Str} (h : w.clampSelections c name = .ok w') :
    (∀ d, d ≠ c → w'.clients.map.get d = w.clients.map.get d) ∧
    ∀ ctx, w.clients.map.get c = some ctx → ∃ ctx', w'.clients.map.get c = some ctx' ∧ ctx'.view = ctx.view ∧
      ∀ k, k ≠ ctx.view.key → ctx'.selections.get k = ctx.selections.get k := by
  unfold World.clampSelections at h
  obtain ⟨b, hb, h⟩ := bind_inv h
  obtain ⟨n, hn, h⟩ := bind_inv h
  obtain ⟨ctx, hc, h⟩ := bind_inv h
  obtain ⟨m, hm, h⟩ := bind_inv h
  obtain ⟨l, hl, h⟩ := bind_inv h
  cases h
  refine ⟨fun d hd => ?_, fun x hx => ?_⟩
  · show Assoc.get (w.clients.map.set c _) d = _
    rw [Assoc.get_set, if_neg hd]
  · rw [unwrap_inv hc] at hx
    cases hx
    refine ⟨_, Assoc.get_set_self _ _ _, rfl, fun k hk => ?_⟩
    show Assoc.get (ctx.selections.set ctx.view.key _) k = _
    rw [Assoc.get_set, if_neg hk]

theorem keep_deleteSelection {w w' : World} {env : Env} {c : Nat} {r : List Bytes} (h : w.deleteSelection env c = .ok (w', r)) :
    ∃ ctx ctx', w.clients.map.get c = some ctx ∧ w'.clients.map.get c = some ctx' ∧
      (∀ d, d ≠ c → w'.clients.map.get d = w.clients.map.get d) ∧
      ∀ k, k ≠ ctx.view.key → ctx'.selections.get k = ctx.selections.get k := by
  unfold World.deleteSelection at h
  obtain ⟨ctx, hc, h⟩ := bind_inv h
  have hc := Assoc.at_inv hc
  obtain ⟨sels, hs, h⟩ := bind_inv h
  obtain ⟨⟨w1, del, mod⟩, h1, h⟩ := bind_inv h
  have t1 : w1.clients = w.clients := foldlM_ind (P := fun st => st.1.clients = w.clients) h1 rfl fun x _ a a' ia ha => by
    unfold World.deleteStep at ha
    obtain ⟨b, hb, ha⟩ := bind_inv ha
    obtain ⟨r, hr, ha⟩ := bind_inv ha
    cases ha
    exact ia
  obtain ⟨w2, h2, h⟩ := bind_inv h
  have t2 := foldlM_ind (P := fun a : World => (∀ d, d ≠ c → a.clients.map.get d = w.clients.map.get d) ∧
      ∃ y, a.clients.map.get c = some y ∧ y.view = ctx.view ∧
        ∀ k, k ≠ ctx.view.key → y.selections.get k = ctx.selections.get k) h2
    ⟨fun d _ => by rw [t1], ctx, by rw [t1]; exact hc, rfl, fun _ _ => rfl⟩ fun x _ a a' ia ha => by
      obtain ⟨o, y, hy, hv, hk⟩ := ia
      obtain ⟨o', ho⟩ := keep_clamp ha
      obtain ⟨y', hy', hv', hk'⟩ := ho y hy
      exact ⟨fun d hd => (o' d hd).trans (o d hd), y', hy', hv'.trans hv,
        fun k hne => (hk' k (by rw [hv]; exact hne)).trans (hk k hne)⟩
  obtain ⟨o, y, hy, hv, hk⟩ := t2
  split at h
  · obtain ⟨w3, h3, h⟩ := bind_inv h
    cases h
    obtain ⟨p, _, rfl⟩ := World.notify_ok h3
    exact ⟨ctx, y, hc, hy, o, hk⟩
  · cases h
    exact ⟨ctx, y, hc, hy, o, hk⟩

/-- C92: whatever happens in a session, a client keeps what it had selected in a view it is not working in: the selections of a
client in a view change only when the client itself moves or deletes there, or when the view is closed, replaced, or is what
another view becomes.  At most there are, in buffers where the client had none, new selections at the start. -/
theorem C92_kept {w w' : World} (h : CoreHistory CleanName w) {env : Env} {op : CoreOp} (hop : op.run env w = .ok w')
    {d : Nat} {x : ClientContext} (hd : w.clients.map.get d = some x) {k : Str} (hk : ¬ Concerned w d k op) :
    ∃ x', w'.clients.map.get d = some x' ∧
      ∀ m, x.selections.get k = some m → ∃ m', x'.selections.get k = some m' ∧ Carried m m' := by
  have i := World.inv_history (fun _ _ h => h) h
  cases op with
  | join id s =>
    obtain ⟨o, _⟩ := C36_join_others hop
    exact ⟨x, (o d hk).trans hd, keepsAt_refl k x⟩
  | leave id =>
    have hop : w.removeClient env id = .ok w' := hop
    unfold World.removeClient at hop
    refine ⟨x, ?_, keepsAt_refl k x⟩
    rw [(World.debug_ok hop).clients]
    show (w.clients.remove id).1.map.get d = some x
    rcases World.remove_cases w.clients id with ⟨_, e⟩ | ⟨_, e, _⟩
    · rw [e]; exact hd
    · rw [e, Assoc.get_del, if_neg (show ¬ d = id from hk)]; exact hd
  | edit c n s => exact allKeep_edit k hop d x hd
  | scratch c n t => exact allKeep_edit (w := w.openScratch n t) k hop d x hd
  | view c id =>
    obtain ⟨⟨w1, e⟩, h1, rfl⟩ := map_inv hop
    exact allKeep_view k h1 d x hd
  | viewDelete c =>
    have hop : w.deleteCurrentView env c = .ok w' := hop
    unfold World.deleteCurrentView at hop
    obtain ⟨ctx, hc, hop⟩ := bind_inv hop
    obtain ⟨⟨w1, e⟩, h1, hop⟩ := bind_inv hop
    have hne : k ≠ ctx.view.key := fun e => hk ⟨ctx, Assoc.at_inv hc, e⟩
    cases e with
    | none => cases hop; exact allKeep_deleteView i hne h1 d x hd
    | some _ => cases hop
  | viewAdd c b =>
    obtain ⟨⟨w1, e⟩, h1, rfl⟩ := map_inv hop
    unfold World.addToCurrentView at h1
    split at h1
    · cases h1; exact ⟨x, hd, keepsAt_refl k x⟩
    · rename_i hb
      obtain ⟨ctx, hc, h1⟩ := bind_inv h1
      obtain ⟨w2, h2, h1⟩ := bind_inv h1
      cases h1
      have hc := Assoc.at_inv hc
      have hv := i.clients c ctx hc
      exact (modifyView_keep i hv (World.addLens_live i (by simpa [World.bufferExists] using hb) _ hv) h2).1 k
        (fun e => hk ⟨ctx, hc, .inl e⟩) (fun e => hk ⟨ctx, hc, .inr e⟩) d x hd
  | viewRemove c b =>
    obtain ⟨⟨w1, e⟩, h1, rfl⟩ := map_inv hop
    unfold World.removeFromCurrentView at h1
    split at h1
    · cases h1; exact ⟨x, hd, keepsAt_refl k x⟩
    · obtain ⟨ctx, hc, h1⟩ := bind_inv h1
      obtain ⟨w2, h2, h1⟩ := bind_inv h1
      cases h1
      have hc := Assoc.at_inv hc
      have hv := i.clients c ctx hc
      refine (modifyView_keep i (f := fun v => if v.containsBuffer b then v.removeLensGroup b else v) hv (World.removeLens_live i _ hv) h2).1 k
        (fun e => hk ⟨ctx, hc, .inl e⟩) ?_ d x hd
      split
      · exact fun e => hk ⟨ctx, hc, .inr e⟩
      · exact fun e => hk ⟨ctx, hc, .inl e⟩
  | move c dir ext =>
    obtain ⟨_, _, _, _, o, y, y', m, m', hy, hy', _, hs, _⟩ := C34_motion hop
    by_cases hdc : d = c
    · subst hdc
      rw [hd] at hy
      cases hy
      have hne : k ≠ x.view.key := fun e => hk ⟨rfl, x, hd, e⟩
      exact ⟨y', hy', fun m hm => ⟨m, (hs k hne).trans hm, carried_refl m⟩⟩
    · exact ⟨x, (o d hdc).trans hd, keepsAt_refl k x⟩
  | deleteSelection c =>
    obtain ⟨⟨w1, r⟩, h1, rfl⟩ := map_inv hop
    obtain ⟨y, y', hy, hy', o, hs⟩ := keep_deleteSelection h1
    by_cases hdc : d = c
    · subst hdc
      rw [hd] at hy
      cases hy
      have hne : k ≠ x.view.key := fun e => hk ⟨rfl, x, hd, e⟩
      exact ⟨y', hy', fun m hm => ⟨m, (hs k hne).trans hm, carried_refl m⟩⟩
    · exact ⟨x, (o d hdc).trans hd, keepsAt_refl k x⟩
  | append b t ts =>
    obtain ⟨o, rfl⟩ := World.appendTo_ok hop
    exact ⟨x, hd, keepsAt_refl k x⟩
  | debug t => exact allKeep_same (World.debug_ok hop).clients d x hd
  | message c t =>
    have hop : w.message env c t = .ok w' := hop
    unfold World.message at hop
    obtain ⟨w1, h1, hop⟩ := bind_inv hop
    cases hop
    obtain ⟨o, rfl⟩ := World.appendTo_ok h1
    cases c <;> exact ⟨x, hd, keepsAt_refl k x⟩
  | error c a t =>
    have hop : w.error env c a t = .ok w' := hop
    unfold World.error at hop
    obtain ⟨w1, h1, hop⟩ := bind_inv hop
    cases hop
    obtain ⟨o, rfl⟩ := World.appendTo_ok h1
    cases c <;> exact ⟨x, hd, keepsAt_refl k x⟩
  | notify c n => cases hop; exact ⟨x, hd, keepsAt_refl k x⟩

/-- C92: a client which comes back to a view finds what it had selected there, however long it was away and whatever the clients
did meanwhile, so long as they left that view alone. -/
theorem C92_back {w w' : World} {d : Nat} {k : Str} (r : AwayRun d k w w') (h : CoreHistory CleanName w) {x : ClientContext}
    (hd : w.clients.map.get d = some x) :
    ∃ x', w'.clients.map.get d = some x' ∧
      ∀ m, x.selections.get k = some m → ∃ m', x'.selections.get k = some m' ∧ Carried m m' := by
  induction r generalizing x with
  | none w => exact ⟨x, hd, keepsAt_refl k x⟩
  | next hf hn ha hop r ih =>
    obtain ⟨y, hy, k1⟩ := C92_kept h hop hd ha
    obtain ⟨z, hz, k2⟩ := ih (.step h hn hf hop) hy
    exact ⟨z, hz, keepsAt_trans k1 k2⟩

/-- C92: when a buffer is added to the view of a client, every client, whether it shows this view or not, finds in the new view
what it had selected in the old one, and in the buffer which is new there a selection at the start. -/
theorem C92_added {w w' : World} (h : CoreHistory CleanName w) {env : Env} {c : Nat} {ctx : ClientContext} {b : Str}
    (hc : w.clients.map.get c = some ctx) (hb : w.buffers.has b = true) {e : Option CoreError}
    (hop : w.addToCurrentView env c b = .ok (w', e)) {d : Nat} {x : ClientContext} (hd : w.clients.map.get d = some x)
    {m : Assoc Str (List Selection)} (hm : x.selections.get ctx.view.key = some m) :
    ∃ x' m', w'.clients.map.get d = some x' ∧ x'.selections.get (ctx.view.addLens b .whole).key = some m' ∧ Carried m m' := by
  have i := World.inv_history (fun _ _ h => h) h
  unfold World.addToCurrentView at hop
  rw [if_neg (by simp [World.bufferExists, hb])] at hop
  obtain ⟨ctx', hc', hop⟩ := bind_inv hop
  have hc' := Assoc.at_inv hc'
  rw [hc] at hc'
  cases hc'
  obtain ⟨w2, h2, hop⟩ := bind_inv hop
  cases hop
  have hv := i.clients c ctx hc
  obtain ⟨x', hx', hk⟩ := (modifyView_keep i hv (World.addLens_live i hb _ hv) h2).2
    (by intro e
        obtain ⟨_, hwf, _, _⟩ := i.views _ _ hv
        have : b ∈ (ctx.view.addLens b .whole).buffers := (addLens_buffers hwf b b).2 (Or.inl rfl)
        have e : ctx.view.addLens b .whole = [] := e
        rw [e] at this; cases this) d x hd
  obtain ⟨m', h1, h2⟩ := hk m hm
  exact ⟨x', m', hx', h1, h2⟩

/-- C92: the same when a buffer is taken out of a view that shows others. -/
theorem C92_removed {w w' : World} (h : CoreHistory CleanName w) {env : Env} {c : Nat} {ctx : ClientContext} {b : Str}
    (hc : w.clients.map.get c = some ctx) (hb : b ∈ ctx.view.buffers) {o : Str} (ho : o ∈ ctx.view.buffers) (hob : o ≠ b)
    {e : Option CoreError} (hop : w.removeFromCurrentView env c b = .ok (w', e)) {d : Nat} {x : ClientContext}
    (hd : w.clients.map.get d = some x) {m : Assoc Str (List Selection)} (hm : x.selections.get ctx.view.key = some m) :
    ∃ x' m', w'.clients.map.get d = some x' ∧ x'.selections.get (ctx.view.removeLensGroup b).key = some m' ∧ Carried m m' := by
  have i := World.inv_history (fun _ _ h => h) h
  have hv := i.clients c ctx hc
  obtain ⟨_, hwf, _, hall⟩ := i.views _ _ hv
  unfold World.removeFromCurrentView at hop
  rw [if_neg (by simp [World.bufferExists, hall b hb])] at hop
  obtain ⟨ctx', hc', hop⟩ := bind_inv hop
  have hc' := Assoc.at_inv hc'
  rw [hc] at hc'
  cases hc'
  obtain ⟨w2, h2, hop⟩ := bind_inv hop
  cases hop
  have hf : (if ctx.view.containsBuffer b then ctx.view.removeLensGroup b else ctx.view) = ctx.view.removeLensGroup b := by
    rw [if_pos ((View.contains_iff b).2 hb)]
  obtain ⟨x', hx', hk⟩ := (modifyView_keep i (f := fun v => if v.containsBuffer b then v.removeLensGroup b else v) hv (World.removeLens_live i _ hv) h2).2
    (by rw [hf]
        intro e
        have : o ∈ (ctx.view.removeLensGroup b).buffers := (removeLens_buffers ctx.view b o).2 ⟨hob, ho⟩
        rw [e] at this; cases this) d x hd
  obtain ⟨m', h1, h2⟩ := hk m hm
  rw [hf] at h1
  exact ⟨x', m', hx', h1, h2⟩

/-- Two clients: the second one shows `f` and `g` together and has moved its cursors; the first one shows `f` alone. -/
def opsJ : List CoreOp :=
  [.join 1 [], .join 2 [], .edit 1 ['g'] false, .edit 2 ['f'] false, .viewAdd 2 ['g'], .move 2 .right false, .edit 1 ['f'] false]

def worldJ : World := final (checked ordinaryB opsJ)

theorem worldJ_history : CoreHistory Ordinary worldJ :=
  checked_history (fun _ _ => ordinaryB_ok) (final_ok (by decide +kernel))

/-- where the selections of a client in a buffer of its view are -/
def selectedAt (w : World) (c : Nat) (b : Str) : Option (List Selection) :=
  ((w.clients.map.get c).bind fun x => x.selections.get x.view.key).bind fun m => m.get b

/-- C92: another client's request can move one's cursor: when the view of a client becomes one that is shown already, those who
show it find their cursors where they had them in the view it was made of, and are not told. -/
theorem C92_jump_refuted : ∃ w w', CoreHistory Ordinary w ∧ w.addToCurrentView envA 1 ['g'] = .ok (w', none) ∧
    selectedAt w 2 ['f'] = some [⟨1, 1, 2⟩] ∧ selectedAt w' 2 ['f'] = some [⟨0, 0, 1⟩] ∧
    (w'.clients.map.get 2).map (·.view) = (w.clients.map.get 2).map (·.view) ∧
    ∃ sent, w'.out = w.out ++ sent ∧ ∀ b ∈ sent, b.only = some [1] := by
  refine ⟨worldJ, (final ((worldJ.addToCurrentView envA 1 ['g']).map Prod.fst)), worldJ_history, ?_, by decide +kernel, by decide +kernel,
    by decide +kernel, (final ((worldJ.addToCurrentView envA 1 ['g']).map Prod.fst)).out.drop worldJ.out.length, by decide +kernel, by decide +kernel⟩
  decide +kernel

/-- The theorems above hold of non-trivial sessions: the second client keeps its cursors in its view while the first one opens
`f` there, moves about and closes its view. -/
example : selectedAt (final (checked ordinaryB (opsJ ++ [.move 1 .right false, .viewDelete 1]))) 2 ['f'] = some [⟨1, 1, 2⟩] := by
  decide +kernel

example : ¬ Concerned worldJ 2 str!"f{*}|g{*}" (.viewDelete 1) := by
  rintro ⟨ctx, hc, e⟩
  have : (worldJ.clients.map.get 1).map (·.view.key) = some str!"f{*}" := by decide +kernel
  rw [hc] at this
  have this : some ctx.view.key = _ := this
  rw [← e] at this
  exact absurd this (by decide)

example : ∃ w', worldJ.addToCurrentView envA 1 ['g'] = .ok (w', none) ∧
    ∃ x m, worldJ.clients.map.get 2 = some x ∧ x.selections.get str!"f{*}" = some m ∧ m.get ['f'] = some [⟨0, 0, 1⟩] :=
  ⟨final ((worldJ.addToCurrentView envA 1 ['g']).map Prod.fst), by decide +kernel,
   ((worldJ.clients.map.get 2).getD ⟨[], []⟩), [(['f'], [⟨0, 0, 1⟩])], by decide +kernel, by decide +kernel, by decide +kernel⟩

end Ced.Props

import Verif.Spec.Core
import Verif.Proofs.CoreInv

/-! # What the operations of the editor send -/

namespace Ced.World
variable {env : Env} {w w' : World}

/-- the clients are the same, and what is sent are views, each to one client that is there -/
def Sends (w w' : World) : Prop :=
  (∀ c, w'.clients.map.has c = w.clients.map.has c) ∧
  ∃ new, w'.out = w.out ++ new ∧ ∀ b ∈ new, ∃ c items, b = ⟨some [c], .view items⟩ ∧ w.clients.map.has c = true

theorem Sends.quiet (hc : ∀ c, w'.clients.map.has c = w.clients.map.has c) (ho : w'.out = w.out) : Sends w w' :=
  ⟨hc, [], by simp [ho], by simp⟩

theorem Sends.refl (w : World) : Sends w w := .quiet (fun _ => rfl) rfl

theorem Sends.trans {a b c : World} (h1 : Sends a b) (h2 : Sends b c) : Sends a c := by
  obtain ⟨k1, n1, e1, p1⟩ := h1
  obtain ⟨k2, n2, e2, p2⟩ := h2
  refine ⟨fun x => (k2 x).trans (k1 x), n1 ++ n2, by rw [e2, e1, List.append_assoc], ?_⟩
  intro x hx
  rcases List.mem_append.1 hx with hx | hx
  · exact p1 x hx
  · obtain ⟨d, i, e, hd⟩ := p2 x hx
    exact ⟨d, i, e, by rw [← k1]; exact hd⟩

theorem sends_notify {ids : List Nat} (h : w.notifyViewUpdate env ids = .ok w') : Sends w w' := by
  obtain ⟨ps, hps, rfl⟩ := notify_ok h
  refine ⟨fun _ => rfl, updates ps, rfl, ?_⟩
  clear h
  induction ids generalizing ps with
  | nil => cases hps; simp [updates]
  | cons id ids ih =>
    rw [List.mapM_cons] at hps
    obtain ⟨p, hp, hps⟩ := bind_inv hps
    obtain ⟨ps', hps', hps⟩ := bind_inv hps
    cases hps
    intro b hb
    have : updates (p :: ps') = ⟨some [p.1], .view p.2⟩ :: updates ps' := rfl
    rw [this] at hb
    rcases List.mem_cons.1 hb with rfl | hb
    · obtain ⟨e, ctx, hctx, _⟩ := viewParams_inv hp
      refine ⟨_, _, rfl, Assoc.has_iff.2 ⟨ctx, by rw [e]; exact hctx⟩⟩
    · exact ih _ hps' b hb

theorem sends_append {name : Str} {x : Bytes} (h : w.appendTo env name x = .ok w') : Sends w w' := by
  unfold appendTo at h
  cases hg : w.buffers.get name with
  | none => rw [hg] at h; have := sends_notify h; exact this
  | some b => rw [hg] at h; have := sends_notify h; exact this

theorem sends_debug {x : Str} (h : w.debug env x = .ok w') : Sends w w' := by
  unfold debug at h
  split at h
  · exact sends_append h
  · cases h; exact .refl _

theorem sends_addView {v : View} (h : w.addView v = .ok w') : Sends w w' := by
  obtain ⟨st, e, _⟩ := addView_ok w v
  rw [e] at h
  cases h
  refine .quiet (fun c => ?_) rfl
  show (w.clients.map.mapVals fun _ ctx => addSelections v ctx).has c = w.clients.map.has c
  exact Assoc.has_mapVals _ _ c

theorem sends_openForEdit {name : Str} {scratch b : Bool} (h : w.openForEdit env name scratch = .ok (w', b)) :
    Sends w w' := by
  unfold openForEdit at h
  split at h
  · cases h; exact .quiet (fun _ => rfl) rfl
  · cases h; exact .refl _
  · obtain ⟨⟨b1, r⟩, h1, h⟩ := bind_inv h
    dsimp only at h
    split at h
    · obtain ⟨w2, h2, h⟩ := bind_inv h
      cases h
      have := sends_debug h2
      exact this
    · cases h; exact .quiet (fun _ => rfl) rfl
  · obtain ⟨w2, h2, h⟩ := bind_inv h
    cases h
    obtain ⟨b0, _, rfl⟩ := openFile_ok h2
    exact .quiet (fun _ => rfl) rfl

theorem has_set_same {K V : Type} [DecidableEq K] {m : Assoc K V} {k : K} {v v' : V} (h : m.get k = some v') (c : K) :
    (m.set k v).has c = m.has c := by
  rw [Assoc.has_set]
  by_cases hc : c = k
  · subst hc; rw [Assoc.has_iff.2 ⟨v', h⟩]; simp
  · simp [hc]

theorem sends_view {client : Nat} {id : Str} {o : Option CoreError} (h : w.view env client id = .ok (w', o)) :
    Sends w w' := by
  unfold view at h
  split at h
  · obtain ⟨v, hv, h⟩ := bind_inv h
    obtain ⟨ctx, hctx, h⟩ := bind_inv h
    obtain ⟨w2, h2, h⟩ := bind_inv h
    cases h
    have hg := unwrap_inv hctx
    have s2 := sends_notify h2
    refine Sends.trans ?_ s2
    exact .quiet (has_set_same hg) rfl
  split at h
  · obtain ⟨ctx, hctx, h⟩ := bind_inv h
    obtain ⟨w2, h2, h⟩ := bind_inv h
    cases h
    have hg := unwrap_inv hctx
    have s2 := sends_notify h2
    refine Sends.trans ?_ s2
    exact .quiet (has_set_same hg) rfl
  · cases h; exact .refl _

theorem sends_edit {client : Nat} {name : Str} {scratch : Bool} (h : w.edit env client name scratch = .ok w') :
    Sends w w' := by
  unfold edit at h
  obtain ⟨⟨w1, n⟩, h1, h⟩ := bind_inv h
  obtain ⟨w2, h2, h⟩ := bind_inv h
  obtain ⟨⟨w3, e⟩, h3, h⟩ := bind_inv h
  dsimp only at h
  split at h
  · cases h
  · obtain ⟨w4, h4, h⟩ := bind_inv h
    have s := (sends_openForEdit h1).trans ((sends_addView h2).trans ((sends_view h3).trans (sends_debug h4)))
    split at h
    · exact s.trans (sends_notify h)
    · cases h; exact s

theorem sends_dropBuffer {b : Str} (h : w.dropBuffer env b = .ok w') : Sends w w' := by
  unfold dropBuffer at h
  split at h
  · cases h; exact .refl _
  · have := sends_debug h; exact this

theorem sends_ensureView (h : w.ensureView = .ok w') : Sends w w' := by
  unfold ensureView at h
  split at h
  · split at h
    · have := sends_addView h; exact this
    · exact sends_addView h
  · cases h; exact .refl _

theorem sends_fold {α : Type} {f : World → α → R World} {l : List α} (h : l.foldlM f w = .ok w')
    (hs : ∀ a b x, f a x = .ok b → Sends a b) : Sends w w' :=
  foldlM_ind (P := fun x => Sends w x) h (.refl _) fun _ _ _ _ ha hf => ha.trans (hs _ _ _ hf)

theorem sends_mapClients {f : Nat → ClientContext → ClientContext} : Sends w (w.mapClients f) :=
  .quiet (fun _ => Assoc.has_mapVals ..) rfl

theorem sends_deleteView {id : Str} {o : Option CoreError} (h : w.deleteView env id = .ok (w', o)) : Sends w w' := by
  unfold deleteView at h
  split at h
  · cases h; exact .refl _
  · dsimp only at h
    obtain ⟨v, hv, h⟩ := bind_inv h
    obtain ⟨w1, h1, h⟩ := bind_inv h
    obtain ⟨w2, h2, h⟩ := bind_inv h
    obtain ⟨w3, h3, h⟩ := bind_inv h
    obtain ⟨l, hl, h⟩ := bind_inv h
    obtain ⟨w4, h4, h⟩ := bind_inv h
    cases h
    have s1 : Sends w w1 := by have := sends_debug h1; exact this
    exact s1.trans (sends_mapClients.trans ((sends_fold h2 fun _ _ _ => sends_dropBuffer).trans
      ((sends_ensureView h3).trans (sends_mapClients.trans (sends_notify h4)))))

theorem sends_modifyView {id : Str} {f : View → View} (h : w.modifyView env id f = .ok w') : Sends w w' := by
  unfold modifyView at h
  obtain ⟨v, hv, h⟩ := bind_inv h
  dsimp only at h
  have key : ∀ w1 : World, Sends w w1 → (do
      let (w, e) ← w1.deleteView env v.key
      match e with
      | none => pure w
      | some _ => Except.error Panic.unwrap : R World) = .ok w' → Sends w w' := by
    intro w1 s1 h
    obtain ⟨⟨w2, e⟩, h2, h⟩ := bind_inv h
    dsimp only at h
    split at h
    · cases h; exact s1.trans (sends_deleteView h2)
    · cases h
  split at h
  · split at h
    · obtain ⟨w1, h1, h⟩ := bind_inv h
      exact key w1 (sends_mapClients.trans (sends_addView h1)) h
    · obtain ⟨w1, h1, h⟩ := bind_inv h
      cases h1
      exact key w (.refl _) h
  · cases h; exact .refl _

theorem sends_move {client : Nat} {dir : CursorTarget} {ext : Bool} (h : w.moveCursor env client dir ext = .ok w') :
    Sends w w' := by
  unfold moveCursor at h
  obtain ⟨ctx, hctx, h⟩ := bind_inv h
  obtain ⟨sels, hsels, h⟩ := bind_inv h
  obtain ⟨sels', _, h⟩ := bind_inv h
  dsimp only at h
  have s1 : Sends w { w with clients := { w.clients with
      map := w.clients.map.set client { ctx with selections := ctx.selections.set ctx.view.key sels' } } } :=
    .quiet (has_set_same (Assoc.at_inv hctx)) rfl
  split at h
  · exact s1.trans (sends_notify h)
  · cases h; exact s1

theorem sends_clamp {client : Nat} {name : Str} (h : w.clampSelections client name = .ok w') : Sends w w' := by
  unfold clampSelections at h
  obtain ⟨b, _, h⟩ := bind_inv h
  obtain ⟨m, _, h⟩ := bind_inv h
  obtain ⟨ctx, hctx, h⟩ := bind_inv h
  obtain ⟨ss, _, h⟩ := bind_inv h
  obtain ⟨sels, _, h⟩ := bind_inv h
  cases h
  exact .quiet (has_set_same (unwrap_inv hctx)) rfl

theorem sends_deleteSelection {client : Nat} {texts : List Bytes} (h : w.deleteSelection env client = .ok (w', texts)) :
    Sends w w' := by
  unfold deleteSelection at h
  obtain ⟨ctx, hctx, h⟩ := bind_inv h
  obtain ⟨sels, hsels, h⟩ := bind_inv h
  obtain ⟨⟨w1, d, m⟩, h1, h⟩ := bind_inv h
  obtain ⟨w2, h2, h⟩ := bind_inv h
  have s1 : Sends w w1 := by
    have := foldlM_ind (P := fun x : World × List Bytes × List Str => Sends w x.1) h1 (.refl _) (by
      intro x _ a a' ha hf
      unfold deleteStep at hf
      obtain ⟨b, _, hf⟩ := bind_inv hf
      obtain ⟨⟨b', d'⟩, _, hf⟩ := bind_inv hf
      cases hf
      exact ha.trans (.quiet (fun _ => rfl) rfl))
    exact this
  have s2 : Sends w1 w2 := sends_fold h2 fun _ _ _ => sends_clamp
  split at h
  · obtain ⟨w3, h3, h⟩ := bind_inv h
    cases h
    exact s1.trans (s2.trans (sends_notify h3))
  · cases h; exact s1.trans s2

theorem sends_deleteCurrentView {client : Nat} (h : w.deleteCurrentView env client = .ok w') : Sends w w' := by
  unfold deleteCurrentView at h
  obtain ⟨ctx, _, h⟩ := bind_inv h
  obtain ⟨⟨w1, e⟩, h1, h⟩ := bind_inv h
  dsimp only at h
  split at h
  · cases h; exact sends_deleteView h1
  · cases h

theorem sends_addTo {client : Nat} {b : Str} {o : Option CoreError}
    (h : w.addToCurrentView env client b = .ok (w', o)) : Sends w w' := by
  unfold addToCurrentView at h
  split at h
  · cases h; exact .refl _
  · obtain ⟨ctx, _, h⟩ := bind_inv h
    obtain ⟨w1, h1, h⟩ := bind_inv h
    cases h; exact sends_modifyView h1

theorem sends_removeFrom {client : Nat} {b : Str} {o : Option CoreError}
    (h : w.removeFromCurrentView env client b = .ok (w', o)) : Sends w w' := by
  unfold removeFromCurrentView at h
  split at h
  · cases h; exact .refl _
  · obtain ⟨ctx, _, h⟩ := bind_inv h
    obtain ⟨w1, h1, h⟩ := bind_inv h
    cases h; exact sends_modifyView h1

theorem sends_scratch {client : Nat} {name : Str} {content : Bytes} (h : w.scratch env client name content = .ok w') :
    Sends w w' := by
  unfold scratch at h
  have := sends_edit h
  exact Sends.trans (.quiet (fun _ => rfl) rfl) this

end Ced.World

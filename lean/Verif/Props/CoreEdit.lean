import Verif.Props.Core

/-! # Properties of the editor: opening buffers, changing views (C32, C33) -/

namespace Ced.Props
open Ced Ced.Spec

/-! ## C32 -/

theorem shows_withText {s : Bytes} (hs : s ≠ []) : Shows (PieceTable.withText s) s :=
  (PieceTable.shows_iff (PieceTable.withText_facts hs).1.wf).2 (PieceTable.withText_facts hs).2.1

/-- The buffer an edit request opens: a new scratch buffer holds a newline, a new file buffer the content of the
file ended by a newline; an open buffer is shown as it is when opened as a scratch buffer, and as reloaded (see C12)
otherwise. -/
def Opened (env : Env) (w : World) (name : Str) (scratch : Bool) (buf : Buffer) : Prop :=
  match w.buffers.get name, scratch with
  | none, true => Shows buf.content [NL]
  | none, false => ∃ f, env.fs (env.resolve w.cwd name) = some f ∧
      Shows buf.content (if f.content.getLast? = some NL then f.content else f.content ++ [NL])
  | some b, true => buf = b
  | some b, false => ∃ reloaded, b.loadFromDisk env.stale env.fs env.now = .ok (buf, reloaded)

theorem newFile_shows {fs : FileSystem} {now : Nat} {p : Path} {b : Buffer} (h : Buffer.newFile fs now p = .ok b) :
    ∃ f, fs p = some f ∧ Shows b.content (if f.content.getLast? = some NL then f.content else f.content ++ [NL]) := by
  unfold Buffer.newFile at h
  obtain ⟨f, hf, h⟩ := bind_inv h
  obtain ⟨c, hc, h⟩ := bind_inv h
  cases h
  refine ⟨f, unwrap_inv hf, ?_⟩
  unfold readToString at hc
  split at hc
  · cases hc
    refine shows_withText ?_
    split
    · rename_i h; intro e; rw [e] at h; cases h
    · simp
  · cases hc

theorem openForEdit_spec {w w1 : World} {env : Env} {name : Str} {scratch b : Bool} (hn : name ≠ BUFFER_DEBUG)
    (h : w.openForEdit env name scratch = .ok (w1, b)) :
    (∀ m, m ≠ name → m ≠ BUFFER_DEBUG → w1.buffers.get m = w.buffers.get m) ∧
    ∃ buf, w1.buffers.get name = some buf ∧ Opened env w name scratch buf := by
  unfold World.openForEdit at h
  unfold Opened
  cases scratch with
  | true =>
    cases hg : w.buffers.get name with
    | none =>
      rw [hg] at h
      cases h
      exact ⟨fun m hm _ => Assoc.get_set_ne _ hm, _, Assoc.get_set_self _ _ _, shows_withText (by simp)⟩
    | some b0 =>
      rw [hg] at h
      cases h
      exact ⟨fun _ _ _ => rfl, b0, hg, rfl⟩
  | false =>
    cases hg : w.buffers.get name with
    | none =>
      rw [hg] at h
      obtain ⟨w2, h2, h⟩ := bind_inv h
      cases h
      obtain ⟨b0, hb, rfl⟩ := World.openFile_ok h2
      exact ⟨fun m hm _ => Assoc.get_set_ne _ hm, b0, Assoc.get_set_self _ _ _, newFile_shows hb⟩
    | some b0 =>
      rw [hg] at h
      obtain ⟨⟨b1, r⟩, h1, h⟩ := bind_inv h
      dsimp only at h
      split at h
      · obtain ⟨w2, h2, h⟩ := bind_inv h
        cases h
        have l := World.debug_ok h2
        refine ⟨?_, b1, ?_, r, h1⟩
        · intro m hm hd
          rw [l.others m hd]; exact Assoc.get_set_ne _ hm
        · rw [l.others name hn]; exact Assoc.get_set_self _ _ _
      · cases h
        exact ⟨fun m hm _ => Assoc.get_set_ne _ hm, b1, Assoc.get_set_self _ _ _, r, h1⟩

/-- The selections a client had are still there. -/
def KeepsSelections (x x' : ClientContext) : Prop :=
  ∀ k m b l, x.selections.get k = some m → m.get b = some l → ∃ m', x'.selections.get k = some m' ∧ m'.get b = some l

theorem keepsSel_refl (x : ClientContext) : KeepsSelections x x := fun _ m _ _ h1 h2 => ⟨m, h1, h2⟩

theorem keepsSel_add (v : View) (x : ClientContext) : KeepsSelections x (World.addSelections v x) := by
  intro k m b l h1 h2
  rw [World.addSelections_get]
  split
  · rename_i e
    subst e
    refine ⟨_, rfl, ?_⟩
    rw [World.get_foldl_orInsert, h1]
    simp [h2]
  · exact ⟨m, h1, h2⟩

/-- C32: after an edit request the client sees exactly the named buffer, which is opened as specified (`Opened`); the
other clients keep their views, nobody loses selections, and the other buffers (the log excepted) are unchanged. -/
theorem C32_edit {w w' : World} {env : Env} {c : Nat} {name : Str} {scratch : Bool} (hn : name ≠ BUFFER_DEBUG)
    (h : w.edit env c name scratch = .ok w') :
    (∃ x', w'.clients.map.get c = some x' ∧ x'.view = [(name, [.whole])] ∧
      ∃ sels l, x'.selections.get x'.view.key = some sels ∧ sels.get name = some l) ∧
    (∃ buf, w'.buffers.get name = some buf ∧ Opened env w name scratch buf) ∧
    (∀ d, w'.clients.map.has d = w.clients.map.has d) ∧
    (∀ d x, w.clients.map.get d = some x → ∃ x', w'.clients.map.get d = some x' ∧ KeepsSelections x x' ∧
      (d ≠ c → x'.view = x.view)) ∧
    (∀ m, m ≠ name → m ≠ BUFFER_DEBUG → w'.buffers.get m = w.buffers.get m) := by
  unfold World.edit at h
  obtain ⟨⟨w1, n⟩, h1, h⟩ := bind_inv h
  obtain ⟨w2, h2, h⟩ := bind_inv h
  obtain ⟨⟨w3, e⟩, h3, h⟩ := bind_inv h
  obtain ⟨ho, buf, hbuf, hop⟩ := openForEdit_spec hn h1
  obtain ⟨hc1, hv1⟩ := World.openForEdit_same h1
  obtain ⟨st, e2, _⟩ := World.addView_ok w1 (View.forBuffer name)
  have e2 := e2.symm.trans h2
  cases e2
  obtain ⟨he, hb3, hv3, ⟨x, x3, hx, hx3, hview, hsel⟩, hoth⟩ := C31_by_identifier (Assoc.get_set_self _ _ _) h3
  subst he
  dsimp only at h
  obtain ⟨w4, h4, h⟩ := bind_inv h
  have l := World.debug_ok h4
  have hw' : w'.clients = w4.clients ∧ w'.buffers = w4.buffers := by
    split at h
    · obtain ⟨p, _, rfl⟩ := World.notify_ok h
      exact ⟨rfl, rfl⟩
    · cases h; exact ⟨rfl, rfl⟩
  have hb3 : w3.buffers = w1.buffers := hb3
  have hget : ∀ d, Assoc.get (w1.clients.map.mapVals fun _ ctx => World.addSelections (View.forBuffer name) ctx) d =
      (w.clients.map.get d).map (World.addSelections (View.forBuffer name)) := by
    intro d; rw [Assoc.get_mapVals, hc1]
  have hx : Assoc.get (w1.clients.map.mapVals fun _ ctx => World.addSelections (View.forBuffer name) ctx) c = some x := hx
  have hoth : ∀ d, d ≠ c → w3.clients.map.get d =
      Assoc.get (w1.clients.map.mapVals fun _ ctx => World.addSelections (View.forBuffer name) ctx) d := hoth
  rw [hw'.1, hw'.2, l.clients]
  refine ⟨⟨x3, hx3, hview, ?_⟩, ?_, ?_, ?_, ?_⟩
  · rw [hget] at hx
    cases h0 : w.clients.map.get c with
    | none => rw [h0] at hx; cases hx
    | some x0 =>
      rw [h0] at hx
      cases hx
      obtain ⟨s, hs, hb⟩ := World.has_add_self (View.forBuffer name) x0
      obtain ⟨l', hl⟩ := Assoc.has_iff.1 (hb name (by rw [World.forBuffer_buffers]; simp))
      exact ⟨s, l', by rw [hsel, hview]; exact hs, hl⟩
  · refine ⟨buf, ?_, hop⟩
    rw [l.others name hn, hb3]; exact hbuf
  · intro d
    by_cases hd : d = c
    · subst hd
      rw [hget] at hx
      unfold Assoc.has
      rw [hx3]
      cases h0 : w.clients.map.get d with
      | none => rw [h0] at hx; cases hx
      | some x0 => rfl
    · unfold Assoc.has
      rw [hoth d hd, hget]
      cases w.clients.map.get d <;> rfl
  · intro d y hy
    by_cases hd : d = c
    · subst hd
      rw [hget, hy] at hx
      cases hx
      refine ⟨x3, hx3, ?_, fun e => absurd rfl e⟩
      have := keepsSel_add (View.forBuffer name) y
      intro k m b l h1 h2
      rw [hsel]
      exact this k m b l h1 h2
    · refine ⟨_, by rw [hoth d hd, hget, hy]; rfl, keepsSel_add _ y, fun _ => rfl⟩
  · intro m hm hmd
    rw [l.others m hmd, hb3]; exact ho m hm hmd

/-- the view of a client and its selections in a buffer -/
def sees (r : R World) (c : Nat) (b : Str) : Option (Str × Option (List Selection)) :=
  ((final r).clients.map.get c).map fun x => (x.view.key, (x.selections.get x.view.key).bind fun m => m.get b)

/-- a new file, then a new scratch buffer, then the file shown again where it was left -/
example : sees (session [.join 1 [], .edit 1 ['f'] false, .move 1 .right false]) 1 ['f'] =
      some (str!"f{*}", some [⟨1, 1, 2⟩]) ∧
    sees (session [.join 1 [], .edit 1 ['f'] false, .move 1 .right false, .edit 1 ['s'] true]) 1 ['s'] =
      some (str!"s{*}", some [⟨0, 0, 1⟩]) ∧
    sees (session [.join 1 [], .edit 1 ['f'] false, .move 1 .right false, .edit 1 ['s'] true, .edit 1 ['f'] false]) 1 ['f'] =
      some (str!"f{*}", some [⟨1, 1, 2⟩]) := by decide +kernel

/-! ## C33 -/

/-- replacing the registered view `v` by `f v` -/
theorem modified_spec {w w' : World} (i : World.Inv w) {env : Env} {v : View} {f : View → View} {c : Nat}
    {ctx : ClientContext} (hc : w.clients.map.get c = some ctx) (hcv : ctx.view = v) (hne : (f v).key ≠ v.key) (hem : f v ≠ [])
    (hwf : View.WF (f v)) (hb : ∀ b ∈ (f v).buffers, w.buffers.has b = true) (h : w.modifyView env v.key f = .ok w') :
    (∀ d, w'.clients.map.has d = w.clients.map.has d) ∧
    (∀ d x, w.clients.map.get d = some x → ∃ x', w'.clients.map.get d = some x' ∧
      x'.view = (if x.view = v then f v else x.view) ∧
      ∀ m n l, x.selections.get v.key = some m → m.get n = some l →
        ∃ m', x'.selections.get (f v).key = some m' ∧ m'.get n = some l) ∧
    w'.views.map.get (f v).key = some (f v) ∧
    (∀ k u, w.views.map.get k = some u → u ≠ v → w'.views.map.get k = some u) ∧
    w'.views.map.get v.key = none ∧
    (∀ n, n ≠ BUFFER_DEBUG → (n ∉ v.buffers ∨ n ∈ (f v).buffers ∨ ShownElsewhere w v n) →
      w'.buffers.get n = w.buffers.get n) ∧
    (∀ n, n ≠ BUFFER_DEBUG → n ∈ v.buffers → n ∉ (f v).buffers → ¬ ShownElsewhere w v n → w'.buffers.get n = none) := by
  subst hcv
  have hv := i.clients c ctx hc
  unfold World.modifyView at h
  obtain ⟨v0, hv0, h⟩ := bind_inv h
  have hv0 := Assoc.at_inv hv0
  rw [hv] at hv0
  cases hv0
  dsimp only at h
  rw [if_pos (Ne.symm hne), if_pos (show (f ctx.view).isEmpty = false by
    unfold View.isEmpty; cases he : f ctx.view with
    | nil => exact absurd he hem
    | cons => rfl)] at h
  obtain ⟨w1, h1, h⟩ := bind_inv h
  obtain ⟨⟨w2, e⟩, h2, h⟩ := bind_inv h
  have i0 : World.Inv (w.mapClients fun _ => World.moveSelections ctx.view.key (f ctx.view).key) :=
    World.inv_mapClients i fun _ x => World.moveSelections_view _ _ x
  have i1 := World.inv_addView i0 hwf hem hb h1
  obtain ⟨st, e1, _⟩ := World.addView_ok (w.mapClients fun _ => World.moveSelections ctx.view.key (f ctx.view).key) (f ctx.view)
  have e1 := e1.symm.trans h1
  have hw1v : w1.views = { stack := (f ctx.view).key :: st, map := w.views.map.set (f ctx.view).key (f ctx.view) } := by
    cases e1; rfl
  have hw1b : w1.buffers = w.buffers := by cases e1; rfl
  have hw1c : w1.clients.map = w.clients.map.mapVals fun _ x =>
      World.addSelections (f ctx.view) (World.moveSelections ctx.view.key (f ctx.view).key x) := by
    cases e1
    show Assoc.mapVals (w.clients.map.mapVals fun _ => World.moveSelections ctx.view.key (f ctx.view).key)
      (fun _ x => World.addSelections (f ctx.view) x) = _
    rw [World.mapVals_comp]
  have hv1 : w1.views.map.get ctx.view.key = some ctx.view := by
    rw [hw1v]
    show Assoc.get (w.views.map.set _ _) _ = _
    rw [Assoc.get_set, if_neg (Ne.symm hne)]; exact hv
  rcases World.deleteView_ok i1.mode i1.cnodup h2 with ⟨hx, _⟩ | ⟨v2, hv2, _, he, hcl⟩
  · rw [hv1] at hx; cases hx
  rw [hv1] at hv2
  cases hv2
  subst he
  cases h
  have hsh : ∀ n, ShownElsewhere w1 ctx.view n ↔ n ∈ (f ctx.view).buffers ∨ ShownElsewhere w ctx.view n := by
    intro n
    constructor
    · rintro ⟨k, u, hk, hu, hm⟩
      rw [hw1v] at hk
      have hk : Assoc.get (w.views.map.set _ _) k = some u := hk
      rw [Assoc.get_set] at hk
      split at hk
      · cases hk; exact Or.inl hm
      · exact Or.inr ⟨k, u, hk, hu, hm⟩
    · rintro (hm | ⟨k, u, hk, hu, hm⟩)
      · refine ⟨(f ctx.view).key, f ctx.view, ?_, fun e => hne (by rw [e]), hm⟩
        rw [hw1v]; exact Assoc.get_set_self _ _ _
      · by_cases hkk : k = (f ctx.view).key
        · subst hkk
          have := World.same_view i hb hk
          subst this
          refine ⟨(f ctx.view).key, f ctx.view, ?_, hu, hm⟩
          rw [hw1v]; exact Assoc.get_set_self _ _ _
        · refine ⟨k, u, ?_, hu, hm⟩
          rw [hw1v]
          show Assoc.get (w.views.map.set _ _) k = _
          rw [Assoc.get_set, if_neg hkk]; exact hk
  have hdel : w1.views.map.del ctx.view.key ≠ [] := by
    intro e
    have := Assoc.get_del w1.views.map ctx.view.key (f ctx.view).key
    rw [e, if_neg hne, hw1v] at this
    have : none = Assoc.get (w.views.map.set (f ctx.view).key (f ctx.view)) (f ctx.view).key := this
    rw [Assoc.get_set_self] at this
    cases this
  obtain ⟨next, hnext, hh, hcv, hkeep, hlast, hkb, hgb, _⟩ := closed_spec i1 hv1 hcl
  have hnext : next = f ctx.view := by
    rcases hnext with ⟨k, hf, hg⟩ | ⟨hall, _⟩
    · rw [hw1v] at hf hg
      rw [List.find?_cons_of_pos (by simpa using hne)] at hf
      cases hf
      have hg : Assoc.get (w.views.map.set (f ctx.view).key (f ctx.view)) (f ctx.view).key = some next := hg
      rw [Assoc.get_set_self] at hg
      cases hg; rfl
    · have := hall (f ctx.view).key (f ctx.view) (by rw [hw1v]; exact Assoc.get_set_self _ _ _)
      exact absurd (congrArg View.key this) hne
  subst hnext
  obtain ⟨latest, hl1, hl2⟩ := hcl.latest
  refine ⟨?_, ?_, ?_, ?_, ?_, ?_, ?_⟩
  · intro d; rw [hh, hw1c, Assoc.has_mapVals]
  · intro d x hx
    have hx1 : w1.clients.map.get d = some (World.addSelections (f ctx.view) (World.moveSelections ctx.view.key (f ctx.view).key x)) := by
      rw [hw1c, Assoc.get_mapVals, hx]; rfl
    obtain ⟨x', hx', hview⟩ := hcv d _ hx1
    refine ⟨x', hx', ?_, ?_⟩
    · rw [hview, World.addSelections_view, World.moveSelections_view]
    · intro m n l hm hl
      have hms : (World.moveSelections ctx.view.key (f ctx.view).key x).selections.get (f ctx.view).key = some m := by
        unfold World.moveSelections
        rw [hm]
        exact Assoc.get_set_self _ _ _
      obtain ⟨m', hm', hl'⟩ := keepsSel_add (f ctx.view) _ _ _ _ _ hms hl
      refine ⟨m', ?_, hl'⟩
      rw [hl2, Assoc.get_mapVals, hx1] at hx'
      have hx' : some (World.afterClose _ _ _ _) = some x' := hx'
      cases hx'
      have hemp : (w1.views.map.del ctx.view.key).isEmpty = false := by
        cases hq : w1.views.map.del ctx.view.key with
        | nil => exact absurd hq hdel
        | cons => rfl
      rw [hemp]
      unfold World.afterClose World.relocated
      have : ∀ y : ClientContext, (World.stripped ctx.view.key false y).selections.get (f ctx.view).key =
          y.selections.get (f ctx.view).key := by
        intro y
        show Assoc.get (y.selections.del ctx.view.key) _ = _
        rw [Assoc.get_del, if_neg hne]
      split
      · show (World.stripped ctx.view.key false _).selections.get _ = _
        rw [this]; exact hm'
      · rw [this]; exact hm'
  · rw [hkeep (f ctx.view).key (f ctx.view) (by rw [hw1v]; exact Assoc.get_set_self _ _ _) (fun e => hne (by rw [e]))]
  · intro k u hk hu
    by_cases hkk : k = (f ctx.view).key
    · subst hkk
      have := World.same_view i hb hk
      subst this
      exact hkeep _ _ (by rw [hw1v]; exact Assoc.get_set_self _ _ _) hu
    · refine hkeep k u ?_ hu
      rw [hw1v]
      show Assoc.get (w.views.map.set _ _) k = _
      rw [Assoc.get_set, if_neg hkk]; exact hk
  · rw [hcl.map, if_neg hdel, Assoc.get_del, if_pos rfl]
  · intro n hn hor
    rw [hkb n hn (by rw [hsh]; exact hor), hw1b]
  · intro n hn hm hnf hns
    exact hgb n hn hm (by rw [hsh]; exact fun hor => hor.elim hnf hns)

theorem addLens_key {w : World} (i : World.Inv w) {v : View} {k b : Str} (hv : w.views.map.get k = some v)
    (hb : w.buffers.has b = true) : (v.addLens b .whole).key ≠ v.key := by
  intro e
  obtain ⟨_, hwf, _, hbs⟩ := i.views _ _ hv
  have hl := (World.addLens_live i hb v hv).2
  have e := key_inj (fun n hn => i.names n (hl n hn)) (fun n hn => i.names n (hbs n hn)) e
  have h1 := View.groupOf_addLens hwf b b .whole
  rw [e, if_pos rfl] at h1
  have h2 := (group_add_perm (View.groupOf v b) .whole).length_eq
  rw [← h1] at h2
  simp at h2

theorem addLens_buffers {v : View} (hwf : View.WF v) (b n : Str) :
    n ∈ (v.addLens b .whole).buffers ↔ n = b ∨ n ∈ v.buffers := by
  rw [View.mem_buffers_iff (View.wf_addLens hwf _ _), View.groupOf_addLens hwf, View.mem_buffers_iff hwf]
  by_cases h : b = n
  · subst h
    rw [if_pos rfl]
    exact ⟨fun _ => Or.inl rfl, fun _ => group_add_ne _ _⟩
  · rw [if_neg h]
    exact ⟨Or.inr, fun hor => hor.elim (fun e => absurd e.symm h) id⟩

theorem removeLens_buffers (v : View) (b n : Str) : n ∈ (v.removeLensGroup b).buffers ↔ n ≠ b ∧ n ∈ v.buffers := by
  unfold View.removeLensGroup View.buffers
  simp only [List.mem_map, List.mem_filter, decide_eq_true_eq]
  constructor
  · rintro ⟨x, ⟨h1, h2⟩, rfl⟩; exact ⟨h2, x, h1, rfl⟩
  · rintro ⟨h1, x, h2, rfl⟩; exact ⟨x, ⟨h2, h1⟩, rfl⟩

/-- C33: an unknown buffer is refused, without any effect. -/
theorem C33_unknown {w : World} {env : Env} {c : Nat} {b : Str} (hb : w.buffers.get b = none) :
    w.addToCurrentView env c b = .ok (w, some (.bufferNotFound b)) ∧
    w.removeFromCurrentView env c b = .ok (w, some (.bufferNotFound b)) := by
  unfold World.addToCurrentView World.removeFromCurrentView World.bufferExists
  rw [Assoc.has_false.2 hb]
  exact ⟨rfl, rfl⟩

/-- What replacing a view by another does: exactly the clients that showed the old one follow, with their selections;
the old view is gone, the other views stay. -/
structure Replaced (v v' : View) (w w' : World) : Prop where
  same : ∀ d, w'.clients.map.has d = w.clients.map.has d
  follow : ∀ d x, w.clients.map.get d = some x → ∃ x', w'.clients.map.get d = some x' ∧
    x'.view = (if x.view = v then v' else x.view) ∧
    ∀ m n l, x.selections.get v.key = some m → m.get n = some l → ∃ m', x'.selections.get v'.key = some m' ∧ m'.get n = some l
  new : w'.views.map.get v'.key = some v'
  old : w'.views.map.get v.key = none
  views : ∀ k u, w.views.map.get k = some u → u ≠ v → w'.views.map.get k = some u

/-- C33: adding a buffer replaces the view of the client by one that shows also that buffer, in full, for all the
clients that have this view; no buffer changes (the log excepted). -/
theorem C33_add {w w' : World} (h : CoreHistory CleanName w) {env : Env} {c : Nat} {ctx : ClientContext} {b : Str}
    (hc : w.clients.map.get c = some ctx) (hb : w.buffers.has b = true) {e : Option CoreError}
    (hd : w.addToCurrentView env c b = .ok (w', e)) :
    e = none ∧ ∃ v', Replaced ctx.view v' w w' ∧
      (∀ n, n ∈ v'.buffers ↔ n = b ∨ n ∈ ctx.view.buffers) ∧
      (View.groupOf v' b).Perm (View.groupOf ctx.view b ++ [.whole]) ∧
      (∀ n, n ≠ b → View.groupOf v' n = View.groupOf ctx.view n) ∧
      (∀ n, n ≠ BUFFER_DEBUG → w'.buffers.get n = w.buffers.get n) := by
  have i := World.inv_history (fun _ _ h => h) h
  have hv := i.clients c ctx hc
  obtain ⟨_, hwf, _, _⟩ := i.views _ _ hv
  unfold World.addToCurrentView World.bufferExists at hd
  rw [hb] at hd
  obtain ⟨ctx', hc', hd⟩ := bind_inv hd
  have hc' := Assoc.at_inv hc'
  rw [hc] at hc'
  cases hc'
  obtain ⟨w1, h1, hd⟩ := bind_inv hd
  cases hd
  obtain ⟨hwf', hbs⟩ := World.addLens_live i hb _ hv
  have hmem := addLens_buffers hwf b
  obtain ⟨a1, a2, a3, a4, a5, a6, _⟩ := modified_spec i hc rfl (f := fun v => v.addLens b .whole) (addLens_key i hv hb)
    (by intro e
        have : b ∈ (ctx.view.addLens b .whole).buffers := (hmem b).2 (Or.inl rfl)
        have e : ctx.view.addLens b .whole = [] := e
        rw [e] at this
        cases this) hwf' hbs h1
  refine ⟨rfl, ctx.view.addLens b .whole, ⟨a1, a2, a3, a5, a4⟩, hmem, ?_, ?_, ?_⟩
  · rw [View.groupOf_addLens hwf, if_pos rfl]; exact group_add_perm _ _
  · intro n hn
    rw [View.groupOf_addLens hwf, if_neg (Ne.symm hn)]
  · intro n hn
    refine a6 n hn ?_
    by_cases hm : n ∈ ctx.view.buffers
    · exact Or.inr (Or.inl ((hmem n).2 (Or.inr hm)))
    · exact Or.inl hm

/-- C33: removing a buffer the view of the client does not show does nothing. -/
theorem C33_remove_absent {w w' : World} (h : CoreHistory CleanName w) {env : Env} {c : Nat} {ctx : ClientContext} {b : Str}
    (hc : w.clients.map.get c = some ctx) (hb : w.buffers.has b = true) (hm : b ∉ ctx.view.buffers)
    {e : Option CoreError} (hd : w.removeFromCurrentView env c b = .ok (w', e)) : e = none ∧ w' = w := by
  have i := World.inv_history (fun _ _ h => h) h
  have hv := i.clients c ctx hc
  unfold World.removeFromCurrentView World.bufferExists at hd
  rw [hb] at hd
  obtain ⟨ctx', hc', hd⟩ := bind_inv hd
  have hc' := Assoc.at_inv hc'
  rw [hc] at hc'
  cases hc'
  obtain ⟨w1, h1, hd⟩ := bind_inv hd
  cases hd
  refine ⟨rfl, ?_⟩
  unfold World.modifyView at h1
  obtain ⟨v, hv', h1⟩ := bind_inv h1
  have hv' := Assoc.at_inv hv'
  rw [hv] at hv'
  cases hv'
  have hcf : ctx.view.containsBuffer b = false := by
    cases hx : ctx.view.containsBuffer b with
    | false => rfl
    | true => exact absurd ((View.contains_iff b).1 hx) hm
  simp only [hcf, Bool.false_eq_true, if_false, ne_eq, not_true] at h1
  cases h1; rfl

/-- C33: removing a buffer from a view that shows others replaces the view by one without it, for all the clients that
have this view; the buffer is dropped exactly if no other view shows it, the others do not change (the log excepted). -/
theorem C33_remove {w w' : World} (h : CoreHistory CleanName w) {env : Env} {c : Nat} {ctx : ClientContext} {b b' : Str}
    (hc : w.clients.map.get c = some ctx) (hm : b ∈ ctx.view.buffers) (hm' : b' ∈ ctx.view.buffers)
    (hne : b' ≠ b) {e : Option CoreError} (hd : w.removeFromCurrentView env c b = .ok (w', e)) :
    e = none ∧ ∃ v', Replaced ctx.view v' w w' ∧
      (∀ n, n ∈ v'.buffers ↔ n ≠ b ∧ n ∈ ctx.view.buffers) ∧
      (∀ n, n ≠ b → View.groupOf v' n = View.groupOf ctx.view n) ∧
      (∀ n, n ≠ b → n ≠ BUFFER_DEBUG → w'.buffers.get n = w.buffers.get n) ∧
      (b ≠ BUFFER_DEBUG → ShownElsewhere w ctx.view b → w'.buffers.get b = w.buffers.get b) ∧
      (b ≠ BUFFER_DEBUG → ¬ ShownElsewhere w ctx.view b → w'.buffers.get b = none) := by
  have i := World.inv_history (fun _ _ h => h) h
  have hv := i.clients c ctx hc
  obtain ⟨_, hwf, _, hall⟩ := i.views _ _ hv
  have hb := hall b hm
  unfold World.removeFromCurrentView World.bufferExists at hd
  rw [hb] at hd
  obtain ⟨ctx', hc', hd⟩ := bind_inv hd
  have hc' := Assoc.at_inv hc'
  rw [hc] at hc'
  cases hc'
  obtain ⟨w1, h1, hd⟩ := bind_inv hd
  cases hd
  have hf : (if ctx.view.containsBuffer b then ctx.view.removeLensGroup b else ctx.view) = ctx.view.removeLensGroup b := by
    rw [if_pos ((View.contains_iff b).2 hm)]
  have hmem := removeLens_buffers ctx.view b
  have hbs : ∀ n ∈ (ctx.view.removeLensGroup b).buffers, w.buffers.has n = true := fun n hn => hall n ((hmem n).1 hn).2
  have hkey : (ctx.view.removeLensGroup b).key ≠ ctx.view.key := by
    intro e
    have e := key_inj (fun n hn => i.names n (hbs n hn)) (fun n hn => i.names n (hall n hn)) e
    have := (hmem b).1 (by rw [e]; exact hm)
    exact this.1 rfl
  obtain ⟨a1, a2, a3, a4, a5, a6, a7⟩ := modified_spec i hc rfl
    (f := fun v => if v.containsBuffer b then v.removeLensGroup b else v) (by rw [hf]; exact hkey)
    (by rw [hf]; intro e
        have : b' ∈ (ctx.view.removeLensGroup b).buffers := (hmem b').2 ⟨hne, hm'⟩
        rw [e] at this
        cases this) (by rw [hf]; exact View.wf_remove hwf b) (by rw [hf]; exact hbs) h1
  rw [hf] at a2 a3 a6 a7
  refine ⟨rfl, ctx.view.removeLensGroup b, ⟨a1, a2, a3, a5, a4⟩, hmem, ?_, ?_, ?_, ?_⟩
  · intro n hn
    rw [View.groupOf_remove, if_neg hn]
  · intro n hn hnd
    refine a6 n hnd ?_
    by_cases hx : n ∈ ctx.view.buffers
    · exact Or.inr (Or.inl ((hmem n).2 ⟨hn, hx⟩))
    · exact Or.inl hx
  · intro hnd hs
    exact a6 b hnd (Or.inr (Or.inr hs))
  · intro hnd hs
    exact a7 b hnd hm (fun hx => ((hmem b).1 hx).1 rfl) hs

/-- C33: removing the only buffer of the view closes the view (see C29). -/
theorem C33_remove_last {w : World} (h : CoreHistory CleanName w) {env : Env} {c : Nat} {ctx : ClientContext} {b : Str}
    (hc : w.clients.map.get c = some ctx) (hm : ctx.view.buffers = [b]) :
    (w.removeFromCurrentView env c b).map Prod.fst = w.deleteCurrentView env c := by
  have i := World.inv_history (fun _ _ h => h) h
  have hv := i.clients c ctx hc
  obtain ⟨_, hwf, _, hall⟩ := i.views _ _ hv
  have hb := hall b (by rw [hm]; simp)
  have he : ctx.view.removeLensGroup b = [] := by
    cases hx : ctx.view.removeLensGroup b with
    | nil => rfl
    | cons x xs =>
      have : x.1 ∈ (ctx.view.removeLensGroup b).buffers := by rw [hx]; simp [View.buffers]
      rw [removeLens_buffers, hm] at this
      obtain ⟨h1, h2⟩ := this
      simp at h2
      exact absurd h2 h1
  have hk : ctx.view.key ≠ View.key [] := by
    cases hx : ctx.view with
    | nil => rw [hx] at hm; cases hm
    | cons x xs => rw [key_cons]; simp [View.key, View.join]
  unfold World.removeFromCurrentView World.bufferExists World.deleteCurrentView
  rw [hb, Assoc.at_ok hc]
  show Except.map Prod.fst (World.modifyView env w ctx.view.key _ >>= _) = _
  unfold World.modifyView
  rw [Assoc.at_ok hv]
  have hf : (if ctx.view.containsBuffer b then ctx.view.removeLensGroup b else ctx.view) = [] := by
    rw [if_pos ((View.contains_iff b).2 (by rw [hm]; simp)), he]
  simp only [hf, bind, Except.bind, if_pos hk, View.isEmpty, List.length_nil, beq_self_eq_true, Bool.true_eq_false, if_false,
    pure, Except.pure]
  cases World.deleteView env w ctx.view.key with
  | error e => rfl
  | ok r =>
    obtain ⟨w1, e⟩ := r
    cases e <;> rfl

/-- two clients share a view; a buffer is added, then removed -/
example : sees (session [.join 1 [], .edit 1 ['f'] false, .join 2 [], .move 2 .right false, .edit 2 ['g'] false, .view 2 str!"f{*}",
      .viewAdd 1 ['g']]) 2 ['f'] = some (str!"f{*}|g{*}", some [⟨1, 1, 2⟩]) ∧
    sees (session [.join 1 [], .edit 1 ['f'] false, .join 2 [], .move 2 .right false, .edit 2 ['g'] false, .view 2 str!"f{*}",
      .viewAdd 1 ['g'], .viewRemove 2 ['f']]) 1 ['g'] = some (str!"g{*}", some [⟨0, 0, 1⟩]) := by decide +kernel

end Ced.Props

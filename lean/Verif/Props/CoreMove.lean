import Verif.Props.CoreEdit
import Verif.Proofs.CoreOrder
import Batteries.Data.List.Basic

/-! # Properties of the editor: removal from a view, motions, announcements (C33-C35) -/

namespace Ced.Props
open Ced Ced.Spec

theorem history_mono {ok ok' : World → CoreOp → Prop} (hm : ∀ w op, ok w op → ok' w op) {w : World}
    (h : CoreHistory ok w) : CoreHistory ok' w := by
  induction h with
  | start h => exact .start h
  | step _ hok hf hr ih => exact .step ih (hm _ _ hok) hf hr

/-! ## C33, the defect -/

theorem deleteStep_inv {env : Env} {st st' : World × List Bytes × List Str} {x : Str × List Selection}
    (h : World.deleteStep env st x = .ok st') :
    ∃ b b' dl, st.1.buffers.get x.1 = some b ∧ World.deleteInBuffer env b x.2 = .ok (b', dl) ∧
      st' = ({ st.1 with buffers := st.1.buffers.set x.1 b' }, st.2.1 ++ dl, if dl = [] then st.2.2 else st.2.2 ++ [x.1]) := by
  unfold World.deleteStep at h
  obtain ⟨b, hb, h⟩ := bind_inv h
  obtain ⟨⟨b', dl⟩, hd, h⟩ := bind_inv h
  cases h
  exact ⟨b, b', dl, unwrap_inv hb, hd, rfl⟩

/-- a client with a selection in a buffer that does not exist crashes the server at its next command -/
theorem missing_crashes {w : World} {c : Nat} {ctx : ClientContext} {m : Assoc Str (List Selection)} {b : Str} {s : Selection}
    (hc : w.clients.map.get c = some ctx) (hm : ctx.selections.get ctx.view.key = some m) (hb : m.get b = some [s])
    (hn : w.buffers.get b = none) (env : Env) :
    (∀ dir ext w', w.moveCursor env c dir ext ≠ .ok w') ∧ (∀ r, w.deleteSelection env c ≠ .ok r) ∧
    (∀ r, w.getContext env c ≠ .ok r) := by
  have hmem := Assoc.get_mem hb
  refine ⟨?_, ?_, ?_⟩
  · intro dir ext w' h
    unfold World.moveCursor at h
    rw [Assoc.at_ok hc, except_bind_ok] at h
    dsimp only at h
    rw [Assoc.at_ok hm, except_bind_ok] at h
    obtain ⟨m', hm', _⟩ := bind_inv h
    obtain ⟨y, hy⟩ := mapM_inv hm' _ hmem
    unfold World.moveBuffer at hy
    obtain ⟨buf, hbuf, _⟩ := bind_inv hy
    have := Assoc.at_inv hbuf
    rw [hn] at this
    cases this
  · rintro ⟨w', r⟩ h
    unfold World.deleteSelection at h
    rw [Assoc.at_ok hc, except_bind_ok, Assoc.at_ok hm, except_bind_ok] at h
    obtain ⟨st, hst, _⟩ := bind_inv h
    obtain ⟨a, a', ha, hs⟩ := foldlM_at (P := fun st => st.1.buffers.get b = none) hst hn (by
      intro x _ a a' ha hs
      obtain ⟨buf, buf', dl, h1, _, rfl⟩ := deleteStep_inv hs
      show Assoc.get (a.1.buffers.set x.1 buf') b = none
      rw [Assoc.get_set]
      split
      · rename_i e; subst e; rw [ha] at h1; cases h1
      · exact ha) _ hmem
    obtain ⟨buf, _, _, h1, _, _⟩ := deleteStep_inv hs
    have h1 : a.1.buffers.get b = some buf := h1
    rw [ha] at h1
    cases h1
  · rintro r h
    unfold World.getContext at h
    rw [Assoc.at_ok hc, except_bind_ok, Assoc.at_ok hm, except_bind_ok] at h
    obtain ⟨d, hd, _⟩ := bind_inv h
    obtain ⟨y, hy⟩ := mapM_inv hd _ hmem
    obtain ⟨z, hz, _⟩ := bind_inv hy
    obtain ⟨q, hq⟩ := mapM_inv hz s (by simp)
    unfold World.selectionData World.getCoord at hq
    rw [hn] at hq
    cases hq

/-- C33, a defect: taking a buffer that no other view shows out of a view removes the buffer, but not the selections the
client has in it, so that its next motion, deletion, or script command crashes the server. -/
theorem C33_remove_crashes {w w' : World} (h : CoreHistory Ordinary w) {env : Env} {c : Nat} {ctx : ClientContext} {b b' : Str}
    (hc : w.clients.map.get c = some ctx) (hm : b ∈ ctx.view.buffers) (hm' : b' ∈ ctx.view.buffers)
    (hne : b' ≠ b) (hdbg : b ≠ BUFFER_DEBUG) (hs : ¬ ShownElsewhere w ctx.view b) {e : Option CoreError}
    (hd : w.removeFromCurrentView env c b = .ok (w', e)) (env' : Env) :
    (∀ dir ext w'', w'.moveCursor env' c dir ext ≠ .ok w'') ∧ (∀ r, w'.deleteSelection env' c ≠ .ok r) ∧
    (∀ r, w'.getContext env' c ≠ .ok r) := by
  obtain ⟨sels, h1, h2⟩ := C28_selections h c ctx hc
  obtain ⟨s, hs1⟩ := h2 b hm
  have hclean := history_mono ordinary_clean h
  obtain ⟨_, v', hr, _, _, _, _, hgone⟩ := C33_remove hclean hc hm hm' hne hd
  obtain ⟨x', hx', hview, hsel⟩ := hr.follow c ctx hc
  rw [if_pos rfl] at hview
  obtain ⟨m', hm1, hm2⟩ := hsel sels b [s] h1 hs1
  rw [← hview] at hm1
  exact missing_crashes hx' hm1 hm2 (hgone hdbg hs) env'

/-- a case: `g` is taken out of the view of `f` and `g`, and the view of `g` alone had been closed -/
def opsC : List CoreOp :=
  [.join 1 [], .edit 1 ['g'] false, .edit 1 ['f'] false, .viewAdd 1 ['g'], .join 2 [], .view 2 str!"g{*}", .viewDelete 2]

example : CoreHistory Ordinary (final (checked ordinaryB opsC)) :=
  checked_history (fun _ _ => ordinaryB_ok) (final_ok (by decide +kernel))
example : sees (checked ordinaryB opsC) 1 ['g'] = some (str!"f{*}|g{*}", some [⟨0, 0, 1⟩]) ∧
    (final (checked ordinaryB opsC)).views.map.keys = [str!"*debug*{*}|*scratch*{*}", str!"f{*}|g{*}"] ∧
    sees ((final (checked ordinaryB opsC)).removeFromCurrentView envA 1 ['g'] |>.map Prod.fst) 1 ['g'] =
      some (str!"f{*}", some [⟨0, 0, 1⟩]) ∧
    ((final (checked ordinaryB (opsC ++ [.viewRemove 1 ['g']]))).moveCursor envA 1 .right false).toOption = none := by
  decide +kernel

/-- C33, a defect: when another view shows the buffer, the client that took it out of its view still deletes text in it:
here client 1, who sees only `f`, deletes the first letter of `g`. -/
theorem C33_removed_still_edited :
    let w := final (session [.join 1 [], .edit 1 ['g'] false, .edit 1 ['f'] false, .viewAdd 1 ['g'], .viewRemove 1 ['g']])
    (w.clients.map.get 1).map (·.view.buffers) = some [['f']] ∧
    (w.deleteSelection envA 1).toOption.map (fun r => (r.2, (r.1.buffers.get ['g']).map fun b => b.content.text)) =
      some ([[49], [97]], some (.ok [10, 98, 10])) := by
  decide +kernel

/-! ## C34 -/

/-- The motion of the selections of a view: each selection of each buffer moves as C17-C19 tell. -/
def MovedMap (env : Env) (w : World) (dir : CursorTarget) (ext : Bool) (m m' : Assoc Str (List Selection)) : Prop :=
  ∀ b, match m.get b with
    | none => m'.get b = none
    | some l => ∃ buf l', w.buffers.get b = some buf ∧ m'.get b = some l' ∧
        l.mapM (Selection.move env.seg buf.content dir ext) = .ok l'

/-- C34: moving a cursor changes only the selections the client has in its current view: no buffer, no view, no other
client, no selection in another view.  The client is told what it sees if something moved, and nobody else is told
anything. -/
theorem C34_motion {w w' : World} {env : Env} {c : Nat} {dir : CursorTarget} {ext : Bool}
    (h : w.moveCursor env c dir ext = .ok w') :
    w'.buffers = w.buffers ∧ w'.views = w.views ∧ w'.cwd = w.cwd ∧ w'.clients.stack = w.clients.stack ∧
    (∀ d, d ≠ c → w'.clients.map.get d = w.clients.map.get d) ∧
    ∃ x x' m m', w.clients.map.get c = some x ∧ w'.clients.map.get c = some x' ∧ x'.view = x.view ∧
      (∀ k, k ≠ x.view.key → x'.selections.get k = x.selections.get k) ∧
      x.selections.get x.view.key = some m ∧ x'.selections.get x.view.key = some m' ∧ MovedMap env w dir ext m m' ∧
      ((m' = m ∧ w'.out = w.out) ∨ (m' ≠ m ∧ ∃ items, x'.view.toNotificationParams env.seg w'.buffers (some m') = .ok items ∧
        w'.out = w.out ++ [⟨some [c], .view items⟩])) := by
  unfold World.moveCursor at h
  obtain ⟨x, hx, h⟩ := bind_inv h
  obtain ⟨m, hm, h⟩ := bind_inv h
  obtain ⟨m', hm', h⟩ := bind_inv h
  have hx := Assoc.at_inv hx
  have hm := Assoc.at_inv hm
  have hmoved : MovedMap env w dir ext m m' := fun b => World.mapM_moveBuffer hm' b
  dsimp only at h
  split at h
  · rename_i hne
    obtain ⟨ps, hps, rfl⟩ := World.notify_ok h
    rw [List.mapM_cons] at hps
    obtain ⟨p, hp, hps⟩ := bind_inv hps
    cases hps
    obtain ⟨e1, ctx, hc, hr⟩ := World.viewParams_inv hp
    have hc : Assoc.get (w.clients.map.set c _) c = some ctx := hc
    rw [Assoc.get_set_self] at hc
    cases hc
    have hg : Assoc.get (x.selections.set x.view.key m') x.view.key = some m' := Assoc.get_set_self _ _ _
    refine ⟨rfl, rfl, rfl, rfl, fun d hd => Assoc.get_set_ne _ hd, x, _, m, m', hx, Assoc.get_set_self _ _ _, rfl,
      fun k hk => Assoc.get_set_ne _ hk, hm, hg, hmoved, Or.inr ⟨hne, p.2, ?_, ?_⟩⟩
    · rw [← hg]; exact hr
    · show w.out ++ World.updates [p] = _
      unfold World.updates
      rw [← e1]; rfl
  · rename_i hne
    cases h
    refine ⟨rfl, rfl, rfl, rfl, fun d hd => Assoc.get_set_ne _ hd, x, _, m, m', hx, Assoc.get_set_self _ _ _, rfl,
      fun k hk => Assoc.get_set_ne _ hk, hm, Assoc.get_set_self _ _ _, hmoved, Or.inl ⟨Classical.not_not.1 hne, rfl⟩⟩

/-- the motion of client 2 does not move client 1, who shows the same buffer -/
example : sees (session [.join 1 [], .edit 1 ['f'] false, .join 2 [], .move 2 .right false]) 1 ['f'] =
      some (str!"f{*}", some [⟨0, 0, 1⟩]) ∧
    sees (session [.join 1 [], .edit 1 ['f'] false, .join 2 [], .move 2 .right false]) 2 ['f'] =
      some (str!"f{*}", some [⟨1, 1, 2⟩]) := by decide +kernel

/-! ## C35 -/

/-- A client shows a buffer. -/
def Viewer (w : World) (name : Str) (d : Nat) : Prop :=
  ∃ x, w.clients.map.get d = some x ∧ name ∈ x.view.buffers

/-- A message to a client with what it sees. -/
def Update (env : Env) (w : World) (d : Nat) (msg : Broadcast) : Prop :=
  ∃ x items, w.clients.map.get d = some x ∧
    x.view.toNotificationParams env.seg w.buffers (x.selections.get x.view.key) = .ok items ∧
    msg = ⟨some [d], .view items⟩

theorem updates_spec {env : Env} {w : World} {ids : List Nat} {ps : List (Nat × List ViewParamsItem)}
    (h : ids.mapM (w.viewParams env) = .ok ps) :
    List.Forall₂ (fun d msg => Update env w d msg) ids (World.updates ps) := by
  induction ids generalizing ps with
  | nil => cases h; exact .nil
  | cons d ids ih =>
    rw [List.mapM_cons] at h
    obtain ⟨p, hp, h⟩ := bind_inv h
    obtain ⟨ps', hps, h⟩ := bind_inv h
    cases h
    obtain ⟨e, x, hx, hr⟩ := World.viewParams_inv hp
    refine .cons ⟨x, p.2, hx, hr, ?_⟩ (ih hps)
    rw [← e]

theorem viewers_spec {w : World} (hn : w.clients.map.keys.Nodup) {name : Str} (hb : w.buffers.has name = true) :
    (w.clientsWithBuffer name).Nodup ∧ ∀ d, d ∈ w.clientsWithBuffer name ↔ Viewer w name d := by
  unfold World.clientsWithBuffer World.bufferExists
  rw [hb]
  simp only [Bool.true_eq_false, if_false]
  constructor
  · have : (w.clients.map.filterMap fun c => if c.2.view.containsBuffer name then some c.1 else none).Sublist w.clients.map.keys := by
      unfold Assoc.keys
      generalize w.clients.map = l
      induction l with
      | nil => exact .slnil
      | cons y l ih =>
        rw [List.filterMap_cons]
        by_cases hy : y.2.view.containsBuffer name
        · simp only [hy, if_true, List.map_cons]; exact ih.cons_cons _
        · simp only [hy]; exact ih.cons _
    exact this.nodup hn
  · intro d
    rw [List.mem_filterMap]
    constructor
    · rintro ⟨⟨d', x⟩, hm, he⟩
      split at he
      · rename_i hc
        cases he
        exact ⟨x, Assoc.mem_get hn hm, (View.contains_iff name).1 hc⟩
      · cases he
    · rintro ⟨x, hx, hm⟩
      exact ⟨(d, x), Assoc.get_mem hx, by simp [(View.contains_iff name).2 hm]⟩

/-- C35: when text is appended to a buffer, each client that shows it, and no other, is told once what it now sees; the
text is added at the end of the buffer and nothing else changes. -/
theorem C35_append {w w' : World} (h : CoreHistory CleanName w) {env : Env} {name : Str} {text : Bytes}
    (ha : w.appendTo env name text = .ok w') :
    w'.clients = w.clients ∧ w'.views = w.views ∧
    (∀ n, n ≠ name → w'.buffers.get n = w.buffers.get n) ∧
    (text ≠ [] → ∃ b', w'.buffers.get name = some b' ∧
      match w.buffers.get name with
      | none => Shows b'.content text
      | some b => ∀ s, Shows b.content s → Shows b'.content (s ++ text)) ∧
    ∃ ids, w'.out.take w.out.length = w.out ∧ List.Forall₂ (Update env w') ids (w'.out.drop w.out.length) ∧
      ids.Nodup ∧ ∀ d, d ∈ ids ↔ Viewer w name d := by
  have i := World.inv_history (fun _ _ h => h) h
  have key : ∃ w1 : World, w1.notifyViewUpdate env (w1.clientsWithBuffer name) = .ok w' ∧ w1.clients = w.clients ∧
      w1.views = w.views ∧ w1.out = w.out ∧ w1.buffers = w.buffers.set name (World.appended (w.buffers.get name) name text) := by
    unfold World.appendTo at ha
    cases hg : w.buffers.get name with
    | none => rw [hg] at ha; exact ⟨_, ha, rfl, rfl, rfl, rfl⟩
    | some b => rw [hg] at ha; exact ⟨_, ha, rfl, rfl, rfl, rfl⟩
  obtain ⟨w1, h1, e1, e2, e3, e4⟩ := key
  obtain ⟨ps, hps, rfl⟩ := World.notify_ok h1
  obtain ⟨n1, n2⟩ := viewers_spec (w := w1) (name := name) (by rw [e1]; exact i.cnodup) (by rw [e4, Assoc.has_set]; simp)
  refine ⟨e1, e2, ?_, ?_, w1.clientsWithBuffer name, ?_, ?_, n1, ?_⟩
  · intro n hn
    show w1.buffers.get n = _
    rw [e4]; exact Assoc.get_set_ne _ hn
  · intro ht
    refine ⟨World.appended (w.buffers.get name) name text, ?_, ?_⟩
    · show w1.buffers.get name = _
      rw [e4]; exact Assoc.get_set_self _ _ _
    · cases hg : w.buffers.get name with
      | none =>
        show Shows (PieceTable.withText (if text = [] then [NL] else text)) text
        rw [if_neg ht]; exact shows_withText ht
      | some b =>
        intro s hs
        have hf := World.texts_history h name b hg
        exact C01_append (PieceTable.forward_any hf) hs ht
  · show (w1.out ++ World.updates ps).take _ = _
    rw [e3]; simp
  · show List.Forall₂ _ _ ((w1.out ++ World.updates ps).drop _)
    rw [e3, List.drop_left]
    exact updates_spec hps
  · intro d
    rw [n2]
    unfold Viewer
    rw [e1]

/-- two clients show `*messages*`, a third one does not: the first two are told of a new message -/
example : let w := final (session [.join 1 [], .message none ['a'], .edit 1 str!"*messages*" true, .join 2 [], .join 3 [], .edit 3 ['f'] false])
    (((w.appendTo envA str!"*messages*" [98, 10]).toOption.map fun w' => (w'.out.drop w.out.length).map (·.only)) =
      some [some [1], some [2]]) := by decide +kernel

/-- C35, the exception: deleting the selection tells nobody but the client that deletes. -/
theorem C35_delete {w w' : World} {env : Env} {c : Nat} {r : List Bytes} (h : w.deleteSelection env c = .ok (w', r)) :
    w'.out = w.out ∨ ∃ items, w'.out = w.out ++ [⟨some [c], .view items⟩] := by
  unfold World.deleteSelection at h
  obtain ⟨ctx, hc, h⟩ := bind_inv h
  obtain ⟨sels, hs, h⟩ := bind_inv h
  obtain ⟨⟨w1, del, mod⟩, h1, h⟩ := bind_inv h
  have t1 : w1.out = w.out :=
    foldlM_ind (P := fun st => st.1.out = w.out) h1 rfl fun x _ a a' ia ha => by
      obtain ⟨_, _, _, _, _, rfl⟩ := deleteStep_inv ha
      exact ia
  obtain ⟨w2, h2, h⟩ := bind_inv h
  have t2 : w2.out = w.out :=
    foldlM_ind (P := fun a => a.out = w.out) h2 t1 fun x _ a a' ia ha => by
      unfold World.clampSelections at ha
      obtain ⟨b, hb, ha⟩ := bind_inv ha
      obtain ⟨n, hn, ha⟩ := bind_inv ha
      obtain ⟨ctx, hc, ha⟩ := bind_inv ha
      obtain ⟨m, hm, ha⟩ := bind_inv ha
      obtain ⟨l, hl, ha⟩ := bind_inv ha
      cases ha
      exact ia
  split at h
  · obtain ⟨w3, h3, h⟩ := bind_inv h
    cases h
    obtain ⟨ps, hps, rfl⟩ := World.notify_ok h3
    rw [List.mapM_cons] at hps
    obtain ⟨p, hp, hps⟩ := bind_inv hps
    cases hps
    obtain ⟨e, _⟩ := World.viewParams_inv hp
    refine Or.inr ⟨p.2, ?_⟩
    show w2.out ++ World.updates [p] = _
    rw [t2, ← e]; rfl
  · cases h; exact Or.inl t2

/-- C35 is false of deletions: two clients show `f`, the second deletes its first letter; only the second is told. -/
theorem C35_delete_refuted :
    let w := final (session [.join 1 [], .edit 1 ['f'] false, .join 2 []])
    (w.clients.map.map fun c => (c.1, c.2.view.buffers)) = [(1, [['f']]), (2, [['f']])] ∧
    ((w.deleteSelection envA 2).toOption.map fun r => (r.2, (r.1.buffers.get ['f']).map fun b => b.content.text)) =
      some ([[49]], some (.ok [50, 51, 52, 53, 10])) ∧
    ((w.deleteSelection envA 2).toOption.map fun r => (r.1.out.drop w.out.length).map (·.only)) =
      some [some [2]] := by decide +kernel

theorem notify_out {env : Env} {w w' : World} {ids : List Nat} (h : w.notifyViewUpdate env ids = .ok w') :
    ∃ ms, w'.out = w.out ++ ms ∧ List.Forall₂ (Update env w') ids ms := by
  obtain ⟨ps, hps, rfl⟩ := World.notify_ok h
  exact ⟨_, rfl, updates_spec hps⟩

theorem append_prefix {env : Env} {w w' : World} {name : Str} {x : Bytes} (h : w.appendTo env name x = .ok w') :
    w.out <+: w'.out := by
  unfold World.appendTo at h
  cases hg : w.buffers.get name with
  | none =>
    rw [hg] at h
    obtain ⟨ms, e, _⟩ := notify_out h
    exact ⟨ms, e.symm⟩
  | some b =>
    rw [hg] at h
    obtain ⟨ms, e, _⟩ := notify_out h
    exact ⟨ms, e.symm⟩

theorem debug_prefix {env : Env} {w w' : World} {x : Str} (h : w.debug env x = .ok w') : w.out <+: w'.out := by
  unfold World.debug at h
  split at h
  · exact append_prefix h
  · cases h; exact List.prefix_refl _

theorem openForEdit_prefix {env : Env} {w w' : World} {name : Str} {scratch b : Bool}
    (h : w.openForEdit env name scratch = .ok (w', b)) : w.out <+: w'.out := by
  unfold World.openForEdit at h
  split at h
  · cases h; exact List.prefix_refl _
  · cases h; exact List.prefix_refl _
  · obtain ⟨⟨b1, r⟩, h1, h⟩ := bind_inv h
    dsimp only at h
    split at h
    · obtain ⟨w2, h2, h⟩ := bind_inv h
      cases h
      have := debug_prefix h2
      exact this
    · cases h; exact List.prefix_refl _
  · obtain ⟨w2, h2, h⟩ := bind_inv h
    cases h
    obtain ⟨b0, _, rfl⟩ := World.openFile_ok h2
    exact List.prefix_refl _

theorem forall2_mem {α β : Type} {P : α → β → Prop} {as : List α} {bs : List β} (h : List.Forall₂ P as bs) {a : α}
    (ha : a ∈ as) : ∃ b ∈ bs, P a b := by
  induction h with
  | nil => cases ha
  | cons hp _ ih =>
    cases ha with
    | head => exact ⟨_, List.mem_cons_self, hp⟩
    | tail _ ha => obtain ⟨b, hb, h⟩ := ih ha; exact ⟨b, List.mem_cons_of_mem _ hb, h⟩

/-- C35: opening or reloading a file tells every client that shows it what it now sees (the requesting client
included, see C32 for what it sees). -/
theorem C35_reload {w w' : World} (h : CoreHistory CleanName w) {env : Env} {c : Nat} {name : Str} (hclean : '{' ∉ name)
    (hr : w.buffers.get name = none ∨
      ∃ b b', w.buffers.get name = some b ∧ b.loadFromDisk env.stale env.fs env.now = .ok (b', true))
    (he : w.edit env c name false = .ok w') :
    ∃ new, w'.out = w.out ++ new ∧ (∃ items, ⟨some [c], .view items⟩ ∈ new) ∧
      ∀ d, d ≠ c → Viewer w' name d → ∃ msg ∈ new, Update env w' d msg := by
  have i := World.inv_history (fun _ _ h => h) h
  have i' := World.inv_op i (op := .edit c name false) (by intro n hn; cases hn; exact hclean) he
  unfold World.edit at he
  obtain ⟨⟨w1, n⟩, ho, he⟩ := bind_inv he
  have hn : n = true := by
    unfold World.openForEdit at ho
    rcases hr with hr | ⟨b, b', hr, hl⟩
    · rw [hr] at ho
      obtain ⟨_, _, ho⟩ := bind_inv ho
      cases ho; rfl
    · rw [hr] at ho
      dsimp only at ho
      rw [hl, except_bind_ok] at ho
      dsimp only at ho
      rw [if_pos rfl] at ho
      obtain ⟨_, _, ho⟩ := bind_inv ho
      cases ho; rfl
  subst hn
  dsimp only at he
  obtain ⟨w2, h2, he⟩ := bind_inv he
  obtain ⟨⟨w3, e⟩, h3, he⟩ := bind_inv he
  cases e with
  | some _ => cases he
  | none =>
    dsimp only at he
    obtain ⟨w4, h4, he⟩ := bind_inv he
    rw [if_pos rfl] at he
    have o2 : w2.out = w1.out := by
      obtain ⟨st, e2, _⟩ := World.addView_ok w1 (View.forBuffer name)
      rw [e2] at h2
      cases h2; rfl
    have o3 : ∃ items, w3.out = w2.out ++ [⟨some [c], .view items⟩] := by
      have hone : ∀ {wa wb : World}, wa.notifyViewUpdate env [c] = .ok wb → ∃ items, wb.out = wa.out ++ [⟨some [c], .view items⟩] := by
        intro wa wb hn
        obtain ⟨ms, e, hf⟩ := notify_out hn
        cases hf with
        | cons hp ht =>
          cases ht
          obtain ⟨_, items, _, _, rfl⟩ := hp
          exact ⟨items, e⟩
      unfold World.view at h3
      split at h3
      · obtain ⟨v, hv, h3⟩ := bind_inv h3
        obtain ⟨ctx, hc, h3⟩ := bind_inv h3
        obtain ⟨wx, hx, h3⟩ := bind_inv h3
        cases h3
        have := hone hx
        exact this
      · split at h3
        · obtain ⟨ctx, hc, h3⟩ := bind_inv h3
          obtain ⟨wx, hx, h3⟩ := bind_inv h3
          cases h3
          have := hone hx
          exact this
        · cases h3
    obtain ⟨items, o3⟩ := o3
    obtain ⟨p1, q1⟩ := openForEdit_prefix ho
    obtain ⟨p4, q4⟩ := debug_prefix h4
    obtain ⟨ms, o5, hms⟩ := notify_out he
    have hv : ∀ d, d ≠ c → Viewer w' name d → d ∈ (w4.clientsWithBuffer name).filter (· ≠ c) := by
      intro d hd hview
      obtain ⟨ps, _, e⟩ := World.notify_ok he
      have ec : w'.clients = w4.clients := by rw [e]
      have eb : w'.buffers = w4.buffers := by rw [e]
      have hb : w'.buffers.has name = true := by
        obtain ⟨x, hx, hm⟩ := hview
        exact (i'.views _ _ (i'.clients d x hx)).2.2.2 name hm
      rw [List.mem_filter]
      refine ⟨((viewers_spec (by rw [← ec]; exact i'.cnodup) (by rw [← eb]; exact hb)).2 d).2 ?_, by simpa using hd⟩
      unfold Viewer at *
      rw [← ec]; exact hview
    refine ⟨p1 ++ [⟨some [c], .view items⟩] ++ p4 ++ ms, ?_, ⟨items, by simp⟩, ?_⟩
    · rw [o5, ← q4, o3, o2, ← q1]; simp
    · intro d hd hview
      obtain ⟨msg, hm, hu⟩ := forall2_mem hms (hv d hd hview)
      exact ⟨msg, by simp [hm], hu⟩

/-- the file `f` is opened by client 1, client 2 shows it too, it changes on disk and client 1 opens it again -/
example : let w := final (session [.join 1 [], .edit 1 ['f'] false, .join 2 []])
    let env := { envA with fs := fun p => if p = [['f']] then some ⟨[57, 10], 9⟩ else none }
    ((w.buffers.get ['f']).bind fun b => (b.loadFromDisk env.stale env.fs env.now).toOption.map Prod.snd) = some true ∧
    ((w.edit env 1 ['f'] false).toOption.map fun w' => (w'.out.drop w.out.length).map (·.only)) =
      some [some [1], some [2]] := by decide +kernel

/-! ## C36 -/

/-- C36: a client that joins gets the view and the selections of the client present that joined last. -/
theorem C36_join {ops : List CoreOp} {w w' : World} (h : CoreRun CleanName ops w) {env : Env} {id c0 : Nat} {others : List Nat}
    {session : Str} (hp : presentClients ops = c0 :: others) (hj : w.addClient env id session = .ok w') :
    ∃ x, w.clients.map.get c0 = some x ∧ w'.clients.map.get id = some x := by
  unfold World.addClient at hj
  obtain ⟨context, hctx, hj⟩ := bind_inv hj
  obtain ⟨r, hins, hj⟩ := bind_inv hj
  obtain ⟨w1, hd, hj⟩ := bind_inv hj
  cases hj
  obtain ⟨st, e, _⟩ := StackMap.insert_ok w.clients id context
  rw [e] at hins
  cases hins
  refine ⟨context, ?_, ?_⟩
  · unfold World.joinContext StackMap.latest at hctx
    rw [World.present_run h, hp] at hctx
    exact Assoc.at_inv hctx
  · show w1.clients.map.get id = _
    rw [(World.debug_ok hd).clients]
    exact Assoc.get_set_self _ _ _

/-- C36: a client that joins alone gets the latest view and fresh selections in all its buffers. -/
theorem C36_join_alone {ops : List CoreOp} {w w' : World} (h : CoreRun CleanName ops w) {env : Env} {id : Nat}
    {session : Str} (hp : presentClients ops = []) (hj : w.addClient env id session = .ok w') :
    ∃ x m, w'.clients.map.get id = some x ∧ w.views.latestValue = some x.view ∧
      x.selections.get x.view.key = some m ∧ ∀ b ∈ x.view.buffers, m.get b = some [⟨0, 0, 1⟩] := by
  unfold World.addClient at hj
  obtain ⟨context, hctx, hj⟩ := bind_inv hj
  obtain ⟨r, hins, hj⟩ := bind_inv hj
  obtain ⟨w1, hd, hj⟩ := bind_inv hj
  cases hj
  obtain ⟨st, e, _⟩ := StackMap.insert_ok w.clients id context
  rw [e] at hins
  cases hins
  unfold World.joinContext StackMap.latest at hctx
  rw [World.present_run h, hp] at hctx
  obtain ⟨v, hv, hctx⟩ := bind_inv hctx
  cases hctx
  refine ⟨{ view := v, selections := [(v.key, World.freshSelections v)] }, World.freshSelections v, ?_, unwrap_inv hv, ?_, ?_⟩
  · show w1.clients.map.get id = _
    rw [(World.debug_ok hd).clients]
    exact Assoc.get_set_self _ _ _
  · simp [Assoc.get]
  · intro b hb
    unfold World.freshSelections
    rw [World.get_foldl_set]
    simp [hb, Selection.new]

/-- C36: joining tells the new client its identifier, and changes neither the other clients, nor the views, nor the
buffers (the log excepted). -/
theorem C36_join_others {w w' : World} {env : Env} {id : Nat} {session : Str} (hj : w.addClient env id session = .ok w') :
    (∀ d, d ≠ id → w'.clients.map.get d = w.clients.map.get d) ∧ w'.views = w.views ∧
    (∀ n, n ≠ BUFFER_DEBUG → w'.buffers.get n = w.buffers.get n) ∧
    w'.out.getLast? = some ⟨some [id], .info (natStr id) session w.cwd⟩ := by
  unfold World.addClient at hj
  obtain ⟨context, hctx, hj⟩ := bind_inv hj
  obtain ⟨r, hins, hj⟩ := bind_inv hj
  obtain ⟨w1, hd, hj⟩ := bind_inv hj
  cases hj
  obtain ⟨st, e, _⟩ := StackMap.insert_ok w.clients id context
  rw [e] at hins
  cases hins
  have l := World.debug_ok hd
  refine ⟨?_, l.views, l.others, ?_⟩
  · intro d hn
    show w1.clients.map.get d = _
    rw [l.clients]
    exact Assoc.get_set_ne _ hn
  · show (w1.out ++ [_]).getLast? = _
    rw [List.getLast?_concat, l.cwd]

/-- client 1 then 2 joined, 2 left: 3 gets the place of 1 -/
example : presentClients [.leave 2, .move 1 .right false, .join 2 [], .edit 1 ['f'] false, .join 1 []] = [1] ∧
    sees (session [.join 1 [], .edit 1 ['f'] false, .join 2 [], .move 1 .right false, .leave 2, .join 3 []]) 3 ['f'] =
      some (str!"f{*}", some [⟨1, 1, 2⟩]) := by decide +kernel

end Ced.Props

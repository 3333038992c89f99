import Verif.Proofs.CoreTidy
import Verif.Proofs.Reach

/-! # The buffers of the editor are buffers in the sense of `Spec.Reach` -/

namespace Ced
open Spec

namespace World
variable {env : Env} {w w' : World}

/-- every buffer comes from the operations of the buffer interface, without undo and redo -/
def Texts (w : World) : Prop := ∀ n b, w.buffers.get n = some b → ForwardHistory b.content

theorem texts_set (t : Texts w) {name : Str} {b : Buffer} (hb : ForwardHistory b.content)
    (h : w'.buffers = w.buffers.set name b) : Texts w' := by
  intro n x hx
  rw [h, Assoc.get_set] at hx
  split at hx
  · cases hx; exact hb
  · exact t n x hx

theorem texts_same (t : Texts w) (h : w'.buffers = w.buffers) : Texts w' := by
  unfold Texts; rw [h]; exact t

theorem forward_scratch (name : Str) (content : Bytes) : ForwardHistory (Buffer.newScratch name content).content := by
  refine .withText ?_ trivial
  split
  · simp
  · rename_i h; exact h

theorem forward_append {t : PieceTable} (h : ForwardHistory t) {x : Bytes} (hx : x ≠ []) : ForwardHistory (t.append x) :=
  .edit (h := ⟨true, 0⟩) (e := .append x) (b := true) h rfl (by simp) (by intro y hy; cases hy; exact hx) rfl

theorem forward_delete {t t' : PieceTable} (h : ForwardHistory t) {hs : StaleHandle} (hf : hs.follows = true) {a n : Nat}
    (hd : t.delete hs a n = .ok t') : ForwardHistory t' := by
  refine .edit (h := hs) (e := .delete a n) (b := true) h hf (by simp) (by intro y hy; cases hy) ?_
  show (t.delete hs a n >>= fun t' => pure (t', true)) = _
  rw [hd]; rfl

theorem forward_newFile {fs : FileSystem} {now : Nat} {p : Path} {b : Buffer} (h : Buffer.newFile fs now p = .ok b) :
    ForwardHistory b.content := by
  unfold Buffer.newFile at h
  obtain ⟨f, _, h⟩ := bind_inv h
  obtain ⟨c, _, h⟩ := bind_inv h
  cases h
  refine .withText ?_ trivial
  split
  · rename_i h; intro e; rw [e] at h; cases h
  · simp

theorem forward_load {hs : Nat → StaleHandle} (hf : ∀ i, (hs i).follows = true) {fs : FileSystem} {now : Nat}
    {b : Buffer} {r : Buffer × Bool} (hb : ForwardHistory b.content) (h : b.loadFromDisk hs fs now = .ok r) :
    ForwardHistory r.1.content := by
  unfold Buffer.loadFromDisk at h
  split at h
  · cases h; exact hb
  · split at h
    · cases h; exact hb
    · obtain ⟨f, _, h⟩ := bind_inv h
      obtain ⟨c, _, h⟩ := bind_inv h
      obtain ⟨t, ht, h⟩ := bind_inv h
      cases h
      exact .update hb hf trivial ht

theorem encode_ne (s : Str) : Str.encode (s ++ ['\n']) ≠ [] := by
  unfold Str.encode
  intro h
  have := (List.flatMap_eq_nil_iff.1 h) '\n' (by simp)
  revert this; decide

theorem texts_append (t : Texts w) {name : Str} {x : Bytes} (hx : x ≠ []) (h : w.appendTo env name x = .ok w') : Texts w' := by
  obtain ⟨o, rfl⟩ := appendTo_ok h
  refine texts_set t (b := appended (w.buffers.get name) name x) ?_ rfl
  unfold appended
  cases hg : w.buffers.get name with
  | none => exact forward_scratch _ _
  | some b => exact forward_append (t name b hg) hx

theorem texts_debug (t : Texts w) {x : Str} (h : w.debug env x = .ok w') : Texts w' := by
  unfold debug at h
  split at h
  · exact texts_append t (encode_ne _) h
  · cases h; exact t

theorem texts_notify (t : Texts w) {ids : List Nat} (h : w.notifyViewUpdate env ids = .ok w') : Texts w' := by
  obtain ⟨p, _, rfl⟩ := notify_ok h
  exact texts_same t rfl

theorem texts_addView (t : Texts w) {v : View} (h : w.addView v = .ok w') : Texts w' := by
  obtain ⟨st, e, hst⟩ := addView_ok w v
  rw [e] at h
  cases h
  exact texts_same t rfl

theorem texts_drop (t : Texts w) {b : Str} (h : dropBuffer env w b = .ok w') : Texts w' := by
  unfold dropBuffer at h
  split at h
  · cases h; exact t
  · refine texts_debug ?_ h
    intro n x hx
    have hx : Assoc.get (w.buffers.del b) n = some x := hx
    rw [Assoc.get_del] at hx
    split at hx
    · cases hx
    · exact t n x hx

theorem texts_deleteView (t : Texts w) {id : Str} {e : Option CoreError} (h : w.deleteView env id = .ok (w', e)) :
    Texts w' := by
  unfold deleteView at h
  split at h
  · cases h; exact t
  obtain ⟨v, hv, h⟩ := bind_inv h
  obtain ⟨w1, h1, h⟩ := bind_inv h
  have t1 : Texts w1 := texts_debug (by exact texts_same t rfl) h1
  obtain ⟨w2, h2, h⟩ := bind_inv h
  have t2 : Texts w2 := foldlM_ind (P := Texts) h2 (by exact texts_same t1 rfl) fun x _ a a' ia ha => texts_drop ia ha
  obtain ⟨w3, h3, h⟩ := bind_inv h
  have t3 : Texts w3 := by
    unfold ensureView at h3
    split at h3
    · refine texts_addView ?_ h3
      split
      · exact texts_set t2 (forward_scratch BUFFER_SCRATCH []) rfl
      · exact t2
    · cases h3; exact t2
  obtain ⟨latest, _, h⟩ := bind_inv h
  obtain ⟨w4, h4, h⟩ := bind_inv h
  cases h
  exact texts_notify (by exact texts_same t3 rfl) h4

theorem texts_modifyView (t : Texts w) {id : Str} {f : View → View} (h : w.modifyView env id f = .ok w') : Texts w' := by
  unfold modifyView at h
  obtain ⟨v, hv, h⟩ := bind_inv h
  dsimp only at h
  split at h
  · split at h
    · obtain ⟨w1, h1, h⟩ := bind_inv h
      obtain ⟨r, hd, h⟩ := bind_inv h
      have t2 := texts_deleteView (texts_addView (w := w.mapClients fun _ => moveSelections v.key (f v).key) (by exact texts_same t rfl) h1) hd
      split at h
      · cases h; exact t2
      · cases h
    · obtain ⟨w1, h1, h⟩ := bind_inv h
      cases h1
      obtain ⟨r, hd, h⟩ := bind_inv h
      have t2 := texts_deleteView t hd
      split at h
      · cases h; exact t2
      · cases h
  · cases h; exact t

theorem texts_view (t : Texts w) {c : Nat} {id : Str} {e : Option CoreError} (h : w.view env c id = .ok (w', e)) :
    Texts w' := by
  unfold view at h
  split at h
  · obtain ⟨v, hv, h⟩ := bind_inv h
    obtain ⟨ctx, hc, h⟩ := bind_inv h
    obtain ⟨w1, hn, h⟩ := bind_inv h
    cases h
    exact texts_notify (by exact texts_same t rfl) hn
  · split at h
    · obtain ⟨ctx, hc, h⟩ := bind_inv h
      obtain ⟨w1, hn, h⟩ := bind_inv h
      cases h
      exact texts_notify (by exact texts_same t rfl) hn
    · cases h; exact t

theorem texts_openForEdit (hf : ∀ i, (env.stale i).follows = true) (t : Texts w) {name : Str} {s b : Bool}
    (h : w.openForEdit env name s = .ok (w', b)) : Texts w' := by
  unfold openForEdit at h
  split at h
  · cases h; exact texts_set t (forward_scratch name []) rfl
  · cases h; exact t
  · rename_i hg
    obtain ⟨r, hl, h⟩ := bind_inv h
    have hr := forward_load hf (t _ _ hg) hl
    dsimp only at h
    split at h
    · obtain ⟨w1, hd, h⟩ := bind_inv h
      cases h
      exact texts_debug (w := { w with buffers := w.buffers.set name r.1 }) (texts_set t hr rfl) hd
    · cases h; exact texts_set t hr rfl
  · obtain ⟨w1, ho, h⟩ := bind_inv h
    cases h
    obtain ⟨b, hb, rfl⟩ := openFile_ok ho
    exact texts_set t (forward_newFile hb) rfl

theorem texts_edit (hf : ∀ i, (env.stale i).follows = true) (t : Texts w) {c : Nat} {name : Str} {s : Bool}
    (h : w.edit env c name s = .ok w') : Texts w' := by
  unfold edit at h
  obtain ⟨r, ho, h⟩ := bind_inv h
  have t1 := texts_openForEdit hf t ho
  obtain ⟨w2, ha, h⟩ := bind_inv h
  have t2 := texts_addView t1 ha
  obtain ⟨r3, hv, h⟩ := bind_inv h
  have t3 := texts_view t2 hv
  dsimp only at h
  split at h
  · cases h
  · obtain ⟨w4, hd, h⟩ := bind_inv h
    have t4 := texts_debug t3 hd
    split at h
    · exact texts_notify t4 h
    · cases h; exact t4

theorem forward_deleteInBuffer (hf : ∀ i, (env.stale i).follows = true) {b : Buffer} {sels : List Selection}
    {r : Buffer × List Bytes} (hb : ForwardHistory b.content) (h : deleteInBuffer env b sels = .ok r) :
    ForwardHistory r.1.content := by
  unfold deleteInBuffer at h
  obtain ⟨⟨t, del⟩, h1, h⟩ := bind_inv h
  cases h
  have ht : ForwardHistory t := foldlM_ind (P := fun st => ForwardHistory st.1) h1 hb fun x _ a a' ia ha => by
    unfold deleteOne at ha
    obtain ⟨r, _, ha⟩ := bind_inv ha
    obtain ⟨tx, _, ha⟩ := bind_inv ha
    split at ha
    · obtain ⟨t2, h2, ha⟩ := bind_inv ha
      cases ha
      unfold deleteRange at h2
      split at h2
      · cases h2
      · exact forward_delete ia (hf 0) h2
    · cases ha; exact ia
  show ForwardHistory (if t.isEmpty then t.append [NL] else t)
  split
  · exact forward_append ht (by simp)
  · exact ht

theorem texts_deleteSelection (hf : ∀ i, (env.stale i).follows = true) (t : Texts w) {c : Nat} {r : List Bytes}
    (h : w.deleteSelection env c = .ok (w', r)) : Texts w' := by
  unfold deleteSelection at h
  obtain ⟨ctx, hc, h⟩ := bind_inv h
  obtain ⟨sels, hs, h⟩ := bind_inv h
  obtain ⟨⟨w1, del, mod⟩, h1, h⟩ := bind_inv h
  have t1 : Texts w1 := foldlM_ind (P := fun st => Texts st.1) h1 t fun x _ a a' ia ha => by
    unfold deleteStep at ha
    obtain ⟨b, hb, ha⟩ := bind_inv ha
    obtain ⟨r, hr, ha⟩ := bind_inv ha
    cases ha
    exact texts_set ia (forward_deleteInBuffer hf (ia _ _ (unwrap_inv hb)) hr) rfl
  obtain ⟨w2, h2, h⟩ := bind_inv h
  have t2 : Texts w2 := foldlM_ind (P := Texts) h2 t1 fun x _ a a' ia ha => by
    unfold clampSelections at ha
    obtain ⟨b, hb, ha⟩ := bind_inv ha
    obtain ⟨m, hm, ha⟩ := bind_inv ha
    obtain ⟨ctx, hc, ha⟩ := bind_inv ha
    obtain ⟨ss, hs, ha⟩ := bind_inv ha
    obtain ⟨sels, hl, ha⟩ := bind_inv ha
    cases ha
    exact texts_same ia rfl
  split at h
  · obtain ⟨w3, h3, h⟩ := bind_inv h
    cases h
    exact texts_notify t2 h3
  · cases h; exact t2

theorem texts_start {cwd : Path} {args cwdText : Str} (h : World.start env cwd args cwdText = .ok w) : Texts w := by
  unfold start at h
  obtain ⟨w1, h1, h⟩ := bind_inv h
  obtain ⟨w2, h2, h⟩ := bind_inv h
  have t0 : Texts (World.new cwd) := by intro n b hb; cases hb
  have t2 := texts_debug (texts_debug t0 h1) h2
  exact texts_addView (w := w2.openScratch BUFFER_SCRATCH []) (texts_set t2 (forward_scratch BUFFER_SCRATCH []) rfl) h

theorem texts_op (hf : ∀ i, (env.stale i).follows = true) (t : Texts w) {op : CoreOp} (h : op.run env w = .ok w') :
    Texts w' := by
  cases op with
  | join id x =>
    have h : w.addClient env id x = .ok w' := h
    unfold addClient at h
    obtain ⟨context, hctx, h⟩ := bind_inv h
    obtain ⟨r, hins, h⟩ := bind_inv h
    obtain ⟨w1, hd, h⟩ := bind_inv h
    cases h
    exact texts_same (w := w1) (texts_debug (by exact texts_same t rfl) hd) rfl
  | leave id => exact texts_debug (w := { w with clients := (w.clients.remove id).1 }) (by exact texts_same t rfl) h
  | edit c name x => exact texts_edit hf t h
  | scratch c name content =>
    exact texts_edit (w := w.openScratch name content) hf (texts_set t (forward_scratch name content) rfl) h
  | view c id => obtain ⟨r, hr, rfl⟩ := map_inv h; exact texts_view t hr
  | viewDelete c =>
    have h : w.deleteCurrentView env c = .ok w' := h
    unfold deleteCurrentView at h
    obtain ⟨ctx, hc, h⟩ := bind_inv h
    obtain ⟨r, hd, h⟩ := bind_inv h
    have := texts_deleteView t hd
    dsimp only at h
    split at h
    · cases h; exact this
    · cases h
  | viewAdd c b =>
    obtain ⟨r, hr, rfl⟩ := map_inv h
    unfold addToCurrentView at hr
    split at hr
    · cases hr; exact t
    · obtain ⟨ctx, hc, hr⟩ := bind_inv hr
      obtain ⟨w1, hm, hr⟩ := bind_inv hr
      cases hr
      exact texts_modifyView t hm
  | viewRemove c b =>
    obtain ⟨r, hr, rfl⟩ := map_inv h
    unfold removeFromCurrentView at hr
    split at hr
    · cases hr; exact t
    · obtain ⟨ctx, hc, hr⟩ := bind_inv hr
      obtain ⟨w1, hm, hr⟩ := bind_inv hr
      cases hr
      exact texts_modifyView t hm
  | move c d e =>
    have h : w.moveCursor env c d e = .ok w' := h
    unfold moveCursor at h
    obtain ⟨ctx, hc, h⟩ := bind_inv h
    obtain ⟨sels, hs, h⟩ := bind_inv h
    obtain ⟨sels', hm, h⟩ := bind_inv h
    dsimp only at h
    split at h
    · exact texts_notify (by exact texts_same t rfl) h
    · cases h; exact texts_same t rfl
  | deleteSelection c => obtain ⟨r, hr, rfl⟩ := map_inv h; exact texts_deleteSelection hf t hr
  | append b x xs => exact texts_append t (by simp) h
  | debug x => exact texts_debug t h
  | message c x =>
    have h : w.message env c x = .ok w' := h
    unfold message at h
    obtain ⟨w1, h1, h⟩ := bind_inv h
    cases h
    have s1 := texts_append t (encode_ne _) h1
    cases c <;> exact texts_same s1 rfl
  | error c t1 t2 =>
    have h : w.error env c t1 t2 = .ok w' := h
    unfold error at h
    obtain ⟨w1, h1, h⟩ := bind_inv h
    cases h
    have s1 := texts_append t (encode_ne _) h1
    cases c <;> exact texts_same s1 rfl
  | notify c n => cases h; exact texts_same t rfl

theorem texts_history {ok : World → CoreOp → Prop} (h : CoreHistory ok w) : Texts w := by
  induction h with
  | start h => exact texts_start h
  | step _ _ hf h ih => exact texts_op hf ih h

end World
end Ced

import Verif.Spec.Whole
import Verif.Proofs.CoreText
import Verif.Proofs.CoreSel
import Verif.Proofs.Chars
import Verif.Proofs.CoreMaps
import Verif.Proofs.Reader
import Verif.Props.MotionAny

/-! Auxiliary lemmas: sessions in which no character is cut in two (C96). -/

namespace Ced
open Spec

namespace PieceTable

theorem boundary_append {x y : Bytes} (hx : IsText x) (hy : IsText y) : IsBoundary (x ++ y) x.length := by
  constructor
  · rw [List.take_left]; exact hx
  · rw [List.drop_left]; exact hy

theorem isText_cancel_right {x y : Bytes} (hy : IsText y) (h : IsText (x ++ y)) : IsText x := by
  have hb : isCharBoundary (x ++ y) x.length = true := by
    obtain ⟨cs, rfl⟩ := hy
    cases cs with
    | nil => simp [isCharBoundary, encode]
    | cons c cs =>
      have hd := encodeChar_pos c
      unfold isCharBoundary
      rw [List.getElem?_append_right (Nat.le_refl _), Nat.sub_self, encode_cons, List.getElem?_append_left hd,
        List.getElem?_eq_getElem hd]
      simp [encodeChar_cont c (List.getElem?_eq_getElem hd)]
  have := ((isCharBoundary_iff h (by simp)).1 hb).1
  rwa [List.take_left] at this

theorem lossyAux_isText : ∀ {fuel : Nat} {s : Bytes}, IsText (utf8LossyAux fuel s)
  | 0, _ => isText_nil
  | _ + 1, [] => isText_nil
  | fuel + 1, b :: bs => by
    rw [utf8LossyAux]
    refine isText_append ?_ lossyAux_isText
    split
    · rename_i hh
      obtain ⟨_, _, h3⟩ := head_encode (s := b :: bs) (n := (utf8Head (b :: bs)).2) (by simp) (by rw [← hh])
      rw [← h3]
      exact ⟨[Char.ofNat (codePoint (List.take (utf8Head (b :: bs)).2 (b :: bs)))], by simp [encode]⟩
    · exact ⟨['\uFFFD'], by decide⟩

/-- lossy decoding always yields a text -/
theorem lossy_isText (s : Bytes) : IsText (utf8Lossy s) := lossyAux_isText

/-- a script that cuts the old text only between characters -/
theorem fold_TextOk {hs : Nat → StaleHandle} (hf : ∀ i, (hs i).follows = true) {text : Bytes} (ht : IsText text)
    {left : Bytes} (hleft : IsText left)
    (ds : List Diff) (hpos : ∀ d ∈ ds, 0 < DiffM.size d) (k : Nat) (t : PieceTable) (o lo ro : Nat)
    (out : Bytes) (hw : t.WF) (hok : t.TextOk) (hc : t.content = out ++ left.drop o)
    (hlo : lo = out.length ∨ (left.length ≤ o ∧ out.length ≤ lo))
    (hcuts : ∀ k ∈ oldCutsFrom o ds, IsBoundary left k) {st : PieceTable × Nat × Nat}
    (h : (ds.zipIdx k).foldlM (fun st d => applyOne (hs d.2) text st d.1) (t, lo, ro) = .ok st) : st.1.TextOk := by
  induction ds generalizing k t o lo ro out with
  | nil =>
    simp only [List.zipIdx_nil, List.foldlM_nil, except_pure, Except.ok.injEq] at h
    subst h
    exact hok
  | cons d ds ih =>
    rw [List.zipIdx_cons, List.foldlM_cons] at h
    have hpos' : ∀ d ∈ ds, 0 < DiffM.size d := fun d hd => hpos d (by simp [hd])
    -- where the cut is made, in the present text
    have at_lo : IsBoundary left o → IsBoundary t.content lo := by
      intro hb
      rcases hlo with h1 | ⟨h1, h2⟩
      · rw [hc, h1]
        have : IsText out := isText_cancel_right hb.2 (hc ▸ hok.isText)
        exact boundary_append this hb.2
      · refine isBoundary_end hok.isText ?_
        rw [hc, List.drop_eq_nil_of_le h1]; simpa using h2
    cases d with
    | left n =>
      simp only [applyOne] at h
      have hb1 : IsBoundary left o := hcuts o (by simp [oldCutsFrom])
      have hb2 : IsBoundary left (o + n) := hcuts (o + n) (by simp [oldCutsFrom])
      have hb3 : IsBoundary t.content (lo + n) := by
        rcases hlo with h1 | ⟨h1, h2⟩
        · have hout : IsText out := isText_cancel_right hb1.2 (hc ▸ hok.isText)
          rcases Nat.lt_or_ge (o + n) left.length with hlt | hge
          · have e : t.content = (out ++ (left.drop o).take n) ++ left.drop (o + n) := by
              rw [hc, List.append_assoc, ← List.drop_drop, List.take_append_drop]
            have hl : lo + n = (out ++ (left.drop o).take n).length := by
              rw [List.length_append, List.length_take, List.length_drop]; omega
            rw [e, hl]
            refine boundary_append ?_ hb2.2
            refine isText_append hout ?_
            have := isText_slice (Nat.le_add_right o n) hb1 hb2
            unfold slice at this
            rwa [List.drop_take, Nat.add_sub_cancel_left] at this
          · refine isBoundary_end hok.isText ?_
            rw [hc, List.length_append, List.length_drop]; omega
        · refine isBoundary_end hok.isText ?_
          rw [hc, List.drop_eq_nil_of_le h1]
          simp; omega
      cases hd : t.delete (hs k) lo n with
      | error e => rw [hd] at h; cases h
      | ok u =>
        rw [hd] at h
        have hok' := delete_TextOk (hf k) hw hok (at_lo hb1) hb3 hd
        rcases delete_eq (hf k) hw lo n with ⟨u', e1, heff, _⟩ | ⟨e1, _⟩ | ⟨e1, _⟩
        · rw [hd] at e1; cases e1
          refine ih hpos' (k + 1) u (o + n) lo ro out heff.wf hok' ?_ ?_ (fun x hx => hcuts x (by simp [oldCutsFrom, hx])) h
          · rw [heff.content, hc, cut]
            rcases hlo with h1 | ⟨h1, h2⟩
            · rw [h1]; simp
            · rw [List.drop_eq_nil_of_le h1, List.drop_eq_nil_of_le (Nat.le_trans h1 (Nat.le_add_right o n))]
              simp only [List.append_nil]
              rw [List.take_of_length_le h2, List.drop_eq_nil_of_le (by omega)]; simp
          · rcases hlo with h1 | ⟨h1, h2⟩
            · exact .inl h1
            · exact .inr ⟨by omega, h2⟩
        · rw [hd] at e1; cases e1
        · rw [hd] at e1; cases e1
    | right n =>
      simp only [applyOne] at h
      have hn : 0 < n := hpos (.right n) (by simp)
      unfold strSliceR at h
      split at h
      · rename_i hsl
        simp only [except_bind_ok, except_pure] at h
        obtain ⟨_, hle, c1, c2⟩ := hsl
        have b1 := (isCharBoundary_iff ht (by omega)).1 c1
        have b2 := (isCharBoundary_iff ht hle).1 c2
        have hxt : IsText ((text.drop ro).take (ro + n - ro)) := by
          have := isText_slice (Nat.le_add_right ro n) b1 b2
          unfold slice at this
          rwa [List.drop_take] at this
        have hxl : ((text.drop ro).take (ro + n - ro)).length = n := by simp; omega
        generalize (text.drop ro).take (ro + n - ro) = x at h hxl hxt
        have hx : x ≠ [] := by intro h0; rw [h0] at hxl; simp at hxl; omega
        obtain ⟨heff, _⟩ := insert_eq hw hx lo
        have hb1 : IsBoundary left o := hcuts o (by simp [oldCutsFrom])
        refine ih hpos' (k + 1) _ o (lo + n) (ro + n) (out ++ x) heff.wf (insert_TextOk hw hok hx hxt (at_lo hb1)) ?_ ?_
          (fun x hx => hcuts x (by simp [oldCutsFrom, hx])) h
        · rw [heff.content, hc, splice]
          rcases hlo with h1 | ⟨h1, h2⟩
          · rw [h1]; simp
          · rw [List.drop_eq_nil_of_le h1]
            simp only [List.append_nil]
            rw [List.take_of_length_le h2, List.drop_eq_nil_of_le (by omega)]; simp
        · simp only [List.length_append, hxl]
          rcases hlo with h1 | ⟨h1, h2⟩
          · left; omega
          · exact .inr ⟨h1, by omega⟩
      · cases h
    | both n =>
      simp only [applyOne, except_bind_ok] at h
      refine ih hpos' (k + 1) t (o + n) (lo + n) (ro + n) (out ++ (left.drop o).take n) hw hok ?_ ?_ hcuts h
      · rw [hc, List.append_assoc, ← List.drop_drop, List.take_append_drop]
      · simp only [List.length_append, List.length_take, List.length_drop]
        rcases hlo with h1 | ⟨h1, h2⟩
        · rcases Nat.le_total n (left.length - o) with h3 | h3
          · left; omega
          · right; omega
        · right; omega

theorem applyDiff_TextOk {hs : Nat → StaleHandle} (hf : ∀ i, (hs i).follows = true) {t t' : PieceTable}
    (hr : t.Ready) (hok : t.TextOk) {text : Bytes} (ht : IsText text) (h : t.applyDiff hs text = .ok t')
    (hcuts : ∀ ds, DiffM.diff t.content text = .ok ds → ∀ k ∈ oldCutsFrom 0 ds, IsBoundary t.content k) : t'.TextOk := by
  unfold applyDiff at h
  rw [text_eq hr.wf hok.pieces] at h
  simp only [except_bind_ok] at h
  cases h2 : DiffM.diff t.content text with
  | error e => rw [h2] at h; cases h
  | ok ds =>
    rw [h2] at h
    simp only [except_bind_ok] at h
    cases h3 : (ds.zipIdx).foldlM (fun st d => applyOne (hs d.2) text st d.1) (t.startBulk, 0, 0) with
    | error e => rw [h3] at h; cases h
    | ok st =>
      rw [h3] at h
      simp only [except_bind_ok, except_pure, Except.ok.injEq] at h
      subst h
      have := fold_TextOk hf ht hok.isText ds (DiffM.diff_pos h2) 0 t.startBulk 0 0 0 [] (action_WF hr.wf .bulk)
        (action_TextOk hr.wf hok .bulk) (by rw [List.nil_append, List.drop_zero]; exact action_content hr.wf .bulk) (.inl rfl) (hcuts ds h2) h3
      exact ⟨this.pieces, this.undos, this.redos⟩

end PieceTable

namespace World
variable {env : Env} {w w' : World}

/-- the buffer is ready for the next edit, and every piece of it, now and before, is a text -/
def Whole (t : PieceTable) : Prop := t.Ready ∧ t.TextOk

/-- so is every buffer -/
def Unbroken (w : World) : Prop := ∀ n b, w.buffers.get n = some b → Whole b.content

theorem whole_set (t : Unbroken w) {name : Str} {b : Buffer} (hb : Whole b.content)
    (h : w'.buffers = w.buffers.set name b) : Unbroken w' := by
  intro n x hx
  rw [h, Assoc.get_set] at hx
  split at hx
  · cases hx; exact hb
  · exact t n x hx

theorem whole_same (t : Unbroken w) (h : w'.buffers = w.buffers) : Unbroken w' := by
  unfold Unbroken; rw [h]; exact t


theorem whole_scratch (name : Str) {content : Bytes} (h : IsText content) : Whole (Buffer.newScratch name content).content := by
  refine PieceTable.clean_ok (.withText ?_ ?_)
  · split
    · simp
    · rename_i h; exact h
  · split
    · exact ⟨['\n'], by decide⟩
    · exact h

theorem whole_append1 {t : PieceTable} (h : Whole t) {x : Bytes} (hx : x ≠ []) (hxt : IsText x) : Whole (t.append x) := by
  have hs : t.step ⟨true, 0⟩ (.append x) = .ok (t.append x, true) := rfl
  exact ⟨(PieceTable.step_refines (e := .append x) rfl h.1 hx hs).1, PieceTable.step_TextOk (e := .append x) rfl h.1 h.2 ⟨hxt, hx⟩ hs⟩

theorem whole_delete {t t' : PieceTable} (h : Whole t) {hs : StaleHandle} (hf : hs.follows = true) {a n : Nat}
    (ha : IsBoundary t.content a) (hn : IsBoundary t.content (a + n)) (hd : t.delete hs a n = .ok t') : Whole t' := by
  have hst : t.step hs (.delete a n) = .ok (t', true) := by
    show (t.delete hs a n >>= fun t' => pure (t', true)) = _
    rw [hd]; rfl
  exact ⟨(PieceTable.step_refines (e := .delete a n) hf h.1 trivial hst).1,
    PieceTable.step_TextOk (e := .delete a n) hf h.1 h.2 ⟨ha, hn⟩ hst⟩

theorem encode_text (s : Str) : IsText (Str.encode s) := ⟨s, rfl⟩

theorem readToString_text {f : DiskFile} {c : Bytes} (h : readToString f = .ok c) : IsText c ∧ c = f.content := by
  unfold readToString at h
  split at h
  · rename_i hv
    cases h
    exact ⟨by rw [← hv]; exact PieceTable.lossy_isText _, rfl⟩
  · cases h

theorem whole_newFile {fs : FileSystem} {now : Nat} {p : Path} {b : Buffer} (h : Buffer.newFile fs now p = .ok b) :
    Whole b.content := by
  unfold Buffer.newFile at h
  obtain ⟨f, _, h⟩ := bind_inv h
  obtain ⟨c, hc, h⟩ := bind_inv h
  obtain ⟨ht, _⟩ := readToString_text hc
  cases h
  refine PieceTable.clean_ok (.withText ?_ ?_)
  · split
    · rename_i h; intro e; rw [e] at h; cases h
    · simp
  · split
    · exact ht
    · exact isText_append ht ⟨['\n'], by decide⟩

theorem whole_load {hs : Nat → StaleHandle} (hf : ∀ i, (hs i).follows = true) {fs : FileSystem} {now : Nat}
    {b : Buffer} {r : Buffer × Bool} (hb : Whole b.content)
    (hk : ∀ p f s ds, b.source = .file p → fs p = some f → Shows b.content s → DiffM.diff s f.content = .ok ds →
      ∀ k ∈ oldCutsFrom 0 ds, IsBoundary s k)
    (h : b.loadFromDisk hs fs now = .ok r) : Whole r.1.content := by
  unfold Buffer.loadFromDisk at h
  split at h
  · cases h; exact hb
  · rename_i p hsrc
    split at h
    · cases h; exact hb
    · obtain ⟨f, hfs, h⟩ := bind_inv h
      obtain ⟨c, hc, h⟩ := bind_inv h
      obtain ⟨ht, rfl⟩ := readToString_text hc
      obtain ⟨t, ht', h⟩ := bind_inv h
      cases h
      obtain ⟨_, _, _, _, hr, _⟩ := PieceTable.applyDiff_eq hf hb.1 ht'
      refine ⟨hr, PieceTable.applyDiff_TextOk hf hb.1 hb.2 ht ht' fun ds hds => ?_⟩
      exact hk p f _ ds hsrc (unwrap_inv hfs) (PieceTable.shows_content hb.1.wf) hds

theorem whole_append (t : Unbroken w) {name : Str} {x : Bytes} (hx : x ≠ []) (hxt : IsText x) (h : w.appendTo env name x = .ok w') : Unbroken w' := by
  obtain ⟨o, rfl⟩ := appendTo_ok h
  refine whole_set t (b := appended (w.buffers.get name) name x) ?_ rfl
  unfold appended
  cases hg : w.buffers.get name with
  | none => exact whole_scratch _ hxt
  | some b => exact whole_append1 (t name b hg) hx hxt

theorem whole_debug (t : Unbroken w) {x : Str} (h : w.debug env x = .ok w') : Unbroken w' := by
  unfold debug at h
  split at h
  · exact whole_append t (encode_ne _) (encode_text _) h
  · cases h; exact t

theorem whole_notify (t : Unbroken w) {ids : List Nat} (h : w.notifyViewUpdate env ids = .ok w') : Unbroken w' := by
  obtain ⟨p, _, rfl⟩ := notify_ok h
  exact whole_same t rfl

theorem whole_addView (t : Unbroken w) {v : View} (h : w.addView v = .ok w') : Unbroken w' := by
  obtain ⟨st, e, hst⟩ := addView_ok w v
  rw [e] at h
  cases h
  exact whole_same t rfl

theorem whole_drop (t : Unbroken w) {b : Str} (h : dropBuffer env w b = .ok w') : Unbroken w' := by
  unfold dropBuffer at h
  split at h
  · cases h; exact t
  · refine whole_debug ?_ h
    intro n x hx
    have hx : Assoc.get (w.buffers.del b) n = some x := hx
    rw [Assoc.get_del] at hx
    split at hx
    · cases hx
    · exact t n x hx

theorem whole_deleteView (t : Unbroken w) {id : Str} {e : Option CoreError} (h : w.deleteView env id = .ok (w', e)) :
    Unbroken w' := by
  unfold deleteView at h
  split at h
  · cases h; exact t
  obtain ⟨v, hv, h⟩ := bind_inv h
  obtain ⟨w1, h1, h⟩ := bind_inv h
  have t1 : Unbroken w1 := whole_debug (by exact whole_same t rfl) h1
  obtain ⟨w2, h2, h⟩ := bind_inv h
  have t2 : Unbroken w2 := foldlM_ind (P := Unbroken) h2 (by exact whole_same t1 rfl) fun x _ a a' ia ha => whole_drop ia ha
  obtain ⟨w3, h3, h⟩ := bind_inv h
  have t3 : Unbroken w3 := by
    unfold ensureView at h3
    split at h3
    · refine whole_addView ?_ h3
      split
      · exact whole_set t2 (whole_scratch BUFFER_SCRATCH isText_nil) rfl
      · exact t2
    · cases h3; exact t2
  obtain ⟨latest, _, h⟩ := bind_inv h
  obtain ⟨w4, h4, h⟩ := bind_inv h
  cases h
  exact whole_notify (by exact whole_same t3 rfl) h4

theorem whole_modifyView (t : Unbroken w) {id : Str} {f : View → View} (h : w.modifyView env id f = .ok w') : Unbroken w' := by
  unfold modifyView at h
  obtain ⟨v, hv, h⟩ := bind_inv h
  dsimp only at h
  split at h
  · split at h
    · obtain ⟨w1, h1, h⟩ := bind_inv h
      obtain ⟨r, hd, h⟩ := bind_inv h
      have t2 := whole_deleteView (whole_addView (w := w.mapClients fun _ => moveSelections v.key (f v).key) (by exact whole_same t rfl) h1) hd
      split at h
      · cases h; exact t2
      · cases h
    · obtain ⟨w1, h1, h⟩ := bind_inv h
      cases h1
      obtain ⟨r, hd, h⟩ := bind_inv h
      have t2 := whole_deleteView t hd
      split at h
      · cases h; exact t2
      · cases h
  · cases h; exact t

theorem whole_view (t : Unbroken w) {c : Nat} {id : Str} {e : Option CoreError} (h : w.view env c id = .ok (w', e)) :
    Unbroken w' := by
  unfold view at h
  split at h
  · obtain ⟨v, hv, h⟩ := bind_inv h
    obtain ⟨ctx, hc, h⟩ := bind_inv h
    obtain ⟨w1, hn, h⟩ := bind_inv h
    cases h
    exact whole_notify (by exact whole_same t rfl) hn
  · split at h
    · obtain ⟨ctx, hc, h⟩ := bind_inv h
      obtain ⟨w1, hn, h⟩ := bind_inv h
      cases h
      exact whole_notify (by exact whole_same t rfl) hn
    · cases h; exact t

theorem whole_openForEdit (hf : ∀ i, (env.stale i).follows = true) (t : Unbroken w) {name : Str} {s b : Bool} {c : Nat}
    (hk : KeepsChars env w (.edit c name s)) (h : w.openForEdit env name s = .ok (w', b)) : Unbroken w' := by
  unfold openForEdit at h
  split at h
  · cases h; exact whole_set t (whole_scratch name isText_nil) rfl
  · cases h; exact t
  · rename_i hg
    obtain ⟨r, hl, h⟩ := bind_inv h
    have hr := whole_load hf (t _ _ hg) (fun p f x ds => hk _ p f x ds hg) hl
    dsimp only at h
    split at h
    · obtain ⟨w1, hd, h⟩ := bind_inv h
      cases h
      exact whole_debug (w := { w with buffers := w.buffers.set name r.1 }) (whole_set t hr rfl) hd
    · cases h; exact whole_set t hr rfl
  · obtain ⟨w1, ho, h⟩ := bind_inv h
    cases h
    obtain ⟨b, hb, rfl⟩ := openFile_ok ho
    exact whole_set t (whole_newFile hb) rfl

theorem whole_edit (hf : ∀ i, (env.stale i).follows = true) (t : Unbroken w) {c : Nat} {name : Str} {s : Bool}
    (hk : KeepsChars env w (.edit c name s)) (h : w.edit env c name s = .ok w') : Unbroken w' := by
  unfold edit at h
  obtain ⟨r, ho, h⟩ := bind_inv h
  have t1 := whole_openForEdit hf t hk ho
  obtain ⟨w2, ha, h⟩ := bind_inv h
  have t2 := whole_addView t1 ha
  obtain ⟨r3, hv, h⟩ := bind_inv h
  have t3 := whole_view t2 hv
  dsimp only at h
  split at h
  · cases h
  · obtain ⟨w4, hd, h⟩ := bind_inv h
    have t4 := whole_debug t3 hd
    split at h
    · exact whole_notify t4 h
    · cases h; exact t4

/-- what deleting one selection does -/
theorem whole_deleteInBuffer (hseg : IsSegmentation env.seg) (hf : ∀ i, (env.stale i).follows = true) {b : Buffer} {sel : Selection}
    {r : Buffer × List Bytes} (hb : Whole b.content) (hfw : ForwardHistory b.content)
    (hk : ∀ s, Shows b.content s → sel.anchor < s.length ∧ sel.cursor < s.length ∧
      ∀ a e, Spans env.seg s sel a e → a ≤ e → IsBoundary s a ∧ IsBoundary s e)
    (h : deleteInBuffer env b [sel] = .ok r) : Whole r.1.content := by
  have hsh := PieceTable.shows_content hb.1.wf
  obtain ⟨k1, k2, k3⟩ := hk _ hsh
  unfold deleteInBuffer at h
  obtain ⟨⟨t, del⟩, h1, h⟩ := bind_inv h
  cases h
  have ht : Whole t := by
    simp only [List.foldlM_cons, List.foldlM_nil] at h1
    obtain ⟨st, ha, h1⟩ := bind_inv h1
    cases h1
    unfold deleteOne at ha
    obtain ⟨⟨a, e⟩, hr, ha⟩ := bind_inv ha
    obtain ⟨tx, _, ha⟩ := bind_inv ha
    have hr := (Props.C87_selected (PieceTable.forward_steady hfw) hsh hseg k1 k2 a e).1 hr
    dsimp only at ha
    split at ha
    · obtain ⟨t2, h2, ha⟩ := bind_inv ha
      cases ha
      unfold deleteRange at h2
      split at h2
      · cases h2
      · rename_i hae
        obtain ⟨b1, b2⟩ := k3 a e hr (by omega)
        exact whole_delete hb (hf 0) b1 (by rw [show a + (e - a) = e by omega]; exact b2) h2
    · cases ha; exact hb
  show Whole (if t.isEmpty then t.append [NL] else t)
  split
  · exact whole_append1 ht (by simp) ⟨['\n'], by decide⟩
  · exact ht

theorem deleteSteps_whole (hseg : IsSegmentation env.seg) (hf : ∀ i, (env.stale i).follows = true)
    (sels : Assoc Str (List Selection)) (hnd : (sels.map (·.1)).Nodup) {st st' : World × List Bytes × List Str}
    (t : Unbroken st.1) (tf : Texts st.1)
    (hk : ∀ x ∈ sels, ∃ sel, x.2 = [sel] ∧ ∀ b s, st.1.buffers.get x.1 = some b → Shows b.content s →
      sel.anchor < s.length ∧ sel.cursor < s.length ∧
      ∀ a e, Spans env.seg s sel a e → a ≤ e → IsBoundary s a ∧ IsBoundary s e)
    (h : sels.foldlM (deleteStep env) st = .ok st') : Unbroken st'.1 := by
  induction sels generalizing st with
  | nil => cases h; exact t
  | cons x sels ih =>
    rw [List.foldlM_cons] at h
    obtain ⟨st1, h1, h⟩ := bind_inv h
    have hnd := List.nodup_cons.1 hnd
    unfold deleteStep at h1
    obtain ⟨b, hb, h1⟩ := bind_inv h1
    have hb := unwrap_inv hb
    obtain ⟨r, hr, h1⟩ := bind_inv h1
    cases h1
    obtain ⟨sel, e1, e2⟩ := hk x (by simp)
    have hfw := forward_deleteInBuffer hf (tf _ _ hb) hr
    rw [e1] at hr
    have hw := whole_deleteInBuffer hseg hf (t _ _ hb) (tf _ _ hb) (fun s hs => e2 b s hb hs) hr
    refine ih hnd.2 (whole_set t hw rfl) (texts_set tf hfw rfl) (fun y hy => ?_) h
    obtain ⟨sel', f1, f2⟩ := hk y (by simp [hy])
    refine ⟨sel', f1, fun b' s hb' => ?_⟩
    have hb' : (st.1.buffers.set x.1 r.1).get y.1 = some b' := hb'
    rw [Assoc.get_set, if_neg] at hb'
    · exact f2 b' s hb'
    · intro e
      exact hnd.1 (List.mem_map.2 ⟨y, hy, e⟩)

theorem whole_deleteSelection (hseg : IsSegmentation env.seg) (hf : ∀ i, (env.stale i).follows = true) (t : Unbroken w) (tf : Texts w)
    {c : Nat} (ho : ∀ ctx k m, w.clients.map.get c = some ctx → ctx.selections.get k = some m → OneEach m)
    (hk : KeepsChars env w (.deleteSelection c)) {r : List Bytes} (h : w.deleteSelection env c = .ok (w', r)) : Unbroken w' := by
  unfold deleteSelection at h
  obtain ⟨ctx, hc, h⟩ := bind_inv h
  obtain ⟨sels, hs, h⟩ := bind_inv h
  obtain ⟨⟨w1, del, mod⟩, h1, h⟩ := bind_inv h
  have hc := Assoc.at_inv hc
  have hs := Assoc.at_inv hs
  obtain ⟨o1, o2⟩ := ho ctx _ sels hc hs
  have t1 : Unbroken w1 := deleteSteps_whole hseg hf sels o1 t tf (fun x hx => by
    have hg := Assoc.mem_get o1 (k := x.1) (v := x.2) hx
    obtain ⟨sel, e⟩ := o2 _ _ hg
    exact ⟨sel, e, fun b s hb hsh => hk ctx sels x.1 sel b s hc hs (e ▸ hg) hb hsh⟩) h1
  obtain ⟨w2, h2, h⟩ := bind_inv h
  have t2 : Unbroken w2 := foldlM_ind (P := Unbroken) h2 t1 fun x _ a a' ia ha => by
    unfold clampSelections at ha
    obtain ⟨b, hb, ha⟩ := bind_inv ha
    obtain ⟨m, hm, ha⟩ := bind_inv ha
    obtain ⟨ctx, hc, ha⟩ := bind_inv ha
    obtain ⟨ss, hs, ha⟩ := bind_inv ha
    obtain ⟨sels, hl, ha⟩ := bind_inv ha
    cases ha
    exact whole_same ia rfl
  split at h
  · obtain ⟨w3, h3, h⟩ := bind_inv h
    cases h
    exact whole_notify t2 h3
  · cases h; exact t2

theorem whole_start {cwd : Path} {args cwdText : Str} (h : World.start env cwd args cwdText = .ok w) : Unbroken w := by
  unfold start at h
  obtain ⟨w1, h1, h⟩ := bind_inv h
  obtain ⟨w2, h2, h⟩ := bind_inv h
  have t0 : Unbroken (World.new cwd) := by intro n b hb; cases hb
  have t2 := whole_debug (whole_debug t0 h1) h2
  exact whole_addView (w := w2.openScratch BUFFER_SCRATCH []) (whole_set t2 (whole_scratch BUFFER_SCRATCH isText_nil) rfl) h

theorem whole_op (hseg : IsSegmentation env.seg) (hf : ∀ i, (env.stale i).follows = true) (t : Unbroken w) (tf : Texts w)
    (ho : ∀ c ctx k m, w.clients.map.get c = some ctx → ctx.selections.get k = some m → OneEach m)
    {op : CoreOp} (hk : KeepsChars env w op) (h : op.run env w = .ok w') :
    Unbroken w' := by
  cases op with
  | join id x =>
    have h : w.addClient env id x = .ok w' := h
    unfold addClient at h
    obtain ⟨context, hctx, h⟩ := bind_inv h
    obtain ⟨r, hins, h⟩ := bind_inv h
    obtain ⟨w1, hd, h⟩ := bind_inv h
    cases h
    exact whole_same (w := w1) (whole_debug (by exact whole_same t rfl) hd) rfl
  | leave id => exact whole_debug (w := { w with clients := (w.clients.remove id).1 }) (by exact whole_same t rfl) h
  | edit c name x => exact whole_edit hf t hk h
  | scratch c name content =>
    exact whole_edit (w := w.openScratch name content) hf (whole_set t (whole_scratch name hk) rfl)
      (by trivial) h
  | view c id => obtain ⟨r, hr, rfl⟩ := map_inv h; exact whole_view t hr
  | viewDelete c =>
    have h : w.deleteCurrentView env c = .ok w' := h
    unfold deleteCurrentView at h
    obtain ⟨ctx, hc, h⟩ := bind_inv h
    obtain ⟨r, hd, h⟩ := bind_inv h
    have := whole_deleteView t hd
    dsimp only at h
    split at h
    · cases h; exact this
    · cases h
  | viewAdd c b =>
    obtain ⟨r, hr, rfl⟩ := map_inv h
    unfold addToCurrentView at hr
    split at hr
    · cases hr; exact t
    · obtain ⟨ctx, hc, hr⟩ := bind_inv hr
      obtain ⟨w1, hm, hr⟩ := bind_inv hr
      cases hr
      exact whole_modifyView t hm
  | viewRemove c b =>
    obtain ⟨r, hr, rfl⟩ := map_inv h
    unfold removeFromCurrentView at hr
    split at hr
    · cases hr; exact t
    · obtain ⟨ctx, hc, hr⟩ := bind_inv hr
      obtain ⟨w1, hm, hr⟩ := bind_inv hr
      cases hr
      exact whole_modifyView t hm
  | move c d e =>
    have h : w.moveCursor env c d e = .ok w' := h
    unfold moveCursor at h
    obtain ⟨ctx, hc, h⟩ := bind_inv h
    obtain ⟨sels, hs, h⟩ := bind_inv h
    obtain ⟨sels', hm, h⟩ := bind_inv h
    dsimp only at h
    split at h
    · exact whole_notify (by exact whole_same t rfl) h
    · cases h; exact whole_same t rfl
  | deleteSelection c => obtain ⟨r, hr, rfl⟩ := map_inv h; exact whole_deleteSelection hseg hf t tf (ho c) hk hr
  | append b x xs => exact whole_append t (by simp) hk h
  | debug x => exact whole_debug t h
  | message c x =>
    have h : w.message env c x = .ok w' := h
    unfold message at h
    obtain ⟨w1, h1, h⟩ := bind_inv h
    cases h
    have s1 := whole_append t (encode_ne _) (encode_text _) h1
    cases c <;> exact whole_same s1 rfl
  | error c t1 t2 =>
    have h : w.error env c t1 t2 = .ok w' := h
    unfold error at h
    obtain ⟨w1, h1, h⟩ := bind_inv h
    cases h
    have s1 := whole_append t (encode_ne _) (encode_text _) h1
    cases c <;> exact whole_same s1 rfl
  | notify c n => cases h; exact whole_same t rfl

theorem whole_core (h : WholeHistory w) : CoreHistory (fun _ _ => True) w := by
  induction h with
  | start h => exact .start h
  | step _ _ _ hf h ih => exact .step ih trivial hf h

theorem whole_history (h : WholeHistory w) : Unbroken w := by
  induction h with
  | start h => exact whole_start h
  | step r hk hseg hf h ih =>
    have hc := whole_core r
    exact whole_op hseg hf ih (texts_history hc) (fun c ctx k m h1 h2 => maps_history oneEach_stable hc c ctx h1 k m h2) hk h

end World
end Ced

import Verif.Props.Showing
import Verif.Props.CoreDelete

/-!
# The context of scripts in texts of any characters (C58)
-/

namespace Ced.Props
open Spec PieceTable

/-- The buffer `b` shows `s`, in which the selections are. -/
def HeldText (w : World) (b : Str) (sels : List Selection) (s : Bytes) : Prop :=
  ∃ buf, w.buffers.get b = some buf ∧ Shows buf.content s ∧ ∀ sel ∈ sels, Within s sel

/-- What is selected begins at `a` and ends before `b`: at the end of the text if the last end of the selection is its
last byte, else where a motion to the right from there leads. -/
def SelectedTo (seg : Segmentation) (s : Bytes) (sel : Selection) (a b : Nat) : Prop :=
  a = lo sel ∧
  (hi sel + 1 = s.length ∧ b = s.length ∨
   hi sel + 1 < s.length ∧ ∃ c m n w, ReadAs seg s (hi sel) m c ∧ Headed seg s (hi sel) c .right n w ∧
     LandsOn seg s n w b ∧ b < s.length)

/-- What a script is told of a selection: the offsets, the coordinates read off them, and the text. -/
def Told58 (seg : Segmentation) (s : Bytes) (sel : Selection) (d : World.SelectionData) : Prop :=
  d.anchor.1 = sel.anchor ∧ ReadAs seg s sel.anchor d.anchor.2.l d.anchor.2.c ∧
  d.cursor.1 = sel.cursor ∧ ReadAs seg s sel.cursor d.cursor.2.l d.cursor.2.c ∧
  ∃ a b, SelectedTo seg s sel a b ∧ d.text = utf8Lossy (slice s a b) ∧ (IsText (slice s a b) → d.text = slice s a b)

theorem mapM_each {α β : Type} {f : α → R β} {l : List α} {ys : List β} (h : l.mapM f = .ok ys) :
    List.Forall₂ (fun x y => f x = .ok y) l ys := by
  induction l generalizing ys with
  | nil => cases h; exact .nil
  | cons x l ih =>
    rw [List.mapM_cons] at h
    obtain ⟨y, hy, h⟩ := bind_inv h
    obtain ⟨zs, hz, h⟩ := bind_inv h
    cases h
    exact .cons hy (ih hz)

theorem forall2_weaken {α β : Type} {P Q : α → β → Prop} {as : List α} {bs : List β} (h : List.Forall₂ P as bs)
    (hi : ∀ a ∈ as, ∀ b, P a b → Q a b) : List.Forall₂ Q as bs := by
  induction h with
  | nil => exact .nil
  | cons h1 _ ih => exact .cons (hi _ List.mem_cons_self _ h1) (ih fun a ha => hi a (List.mem_cons_of_mem _ ha))

/-- the selection of a text as bytes of the text -/
theorem text_between {t : PieceTable} (hw : t.WF) {a b : Nat} {r : Option Bytes} (ha : a < t.content.length)
    (h : t.textRange a b = .ok r) : r = some (utf8Lossy (slice t.content a b)) := by
  unfold textRange at h
  rcases Nat.lt_or_ge b a with hba | hba
  · have hnil : slice t.content a b = [] := by
      unfold slice
      rw [List.drop_eq_nil_iff, List.length_take]
      omega
    rcases (range_reversed hw hba).2 ha with e | e
    · rw [e] at h; cases h; rw [hnil]; rfl
    · rw [e] at h; cases h
  · rw [range_eq hw hba, if_pos ha] at h
    cases h; rfl

/-- one selection -/
theorem told_data {w : World} {P : World → CoreOp → Prop} (h : CoreHistory P w) {env : Env} (hseg : IsSegmentation env.seg)
    {b : Str} {buf : Buffer} (hb : w.buffers.get b = some buf) {s : Bytes} (hs : Shows buf.content s) {sel : Selection}
    (hin : Within s sel) :
    (∀ d, w.selectionData env b sel = .ok d → Told58 env.seg s sel d) ∧
    (∀ a e, SelectedTo env.seg s sel a e → a ≤ e → ∃ d, w.selectionData env b sel = .ok d) := by
  have hf := World.texts_history h b buf hb
  have hw := (reachable_ready (forward_any hf)).wf
  have hn := steady_newlines (forward_steady hf)
  have hc := (shows_iff hw).1 hs
  subst hc
  obtain ⟨n1, c1, r1⟩ := readAs_exists (seg := env.seg) hseg hin.1
  obtain ⟨n2, c2, r2⟩ := readAs_exists (seg := env.seg) hseg hin.2
  have hlo : lo sel < buf.content.content.length := by unfold lo; have := hin.1; omega
  have hsel := C87_selected (forward_steady hf) hs hseg hin.1 hin.2
  unfold World.selectionData World.getCoord World.getSelectedText
  rw [hb]
  dsimp only
  rw [offsetToCoord_read hw hn hseg r1, offsetToCoord_read hw hn hseg r2]
  simp only [except_bind_ok, unwrapR]
  constructor
  · intro d hd
    obtain ⟨t, ht, hd⟩ := bind_inv hd
    cases hd
    obtain ⟨ae, hae, ht⟩ := bind_inv ht
    obtain ⟨a, e⟩ := ae
    have hst : SelectedTo env.seg buf.content.content sel a e := (hsel a e).1 hae
    dsimp only at ht
    have hat : a < buf.content.content.length := by rw [hst.1]; exact hlo
    have := text_between hw hat ht
    subst this
    exact ⟨rfl, r1, rfl, r2, a, e, hst, rfl, fun hx => lossy_of_isText hx⟩
  · intro a e hst hle
    have hst' := (hsel a e).2 hst
    rw [hst']
    simp only [except_bind_ok]
    have hat : a < buf.content.content.length := by rw [hst.1]; exact hlo
    unfold textRange
    rw [range_eq hw hle, if_pos hat]
    exact ⟨_, rfl⟩

/-- C58: whatever the characters of the buffers, the context given to a script names the view of the client and has for
each of its selections the offsets, the line and column read off them, and the text of the selection. -/
theorem C58_any {w : World} {P : World → CoreOp → Prop} (h : CoreHistory P w) {env : Env} (hseg : IsSegmentation env.seg)
    {c : Nat} {ctx : ClientContext} {m : Assoc Str (List Selection)} (hc : w.clients.map.get c = some ctx)
    (hm : ctx.selections.get ctx.view.key = some m) (hin : ∀ b l, m.get b = some l → ∃ s, HeldText w b l s) {key : Str}
    {data : List (Str × List World.SelectionData)} (hr : w.getContext env c = .ok (key, data)) :
    key = ctx.view.key ∧
    List.Forall₂ (fun kv d => d.1 = kv.1 ∧ ∃ s, HeldText w kv.1 kv.2 s ∧ List.Forall₂ (Told58 env.seg s) kv.2 d.2) m data := by
  have hone := World.maps_history World.oneEach_stable h c ctx hc _ _ hm
  unfold World.getContext at hr
  rw [Assoc.at_ok hc, except_bind_ok, Assoc.at_ok hm, except_bind_ok] at hr
  obtain ⟨dat, hd, hr⟩ := bind_inv hr
  cases hr
  refine ⟨rfl, forall2_weaken (mapM_each hd) ?_⟩
  intro kv hkv d hd
  obtain ⟨s, hp⟩ := hin kv.1 kv.2 (Assoc.mem_get hone.1 hkv)
  obtain ⟨buf, hb, hs, hw⟩ := id hp
  obtain ⟨ds, hds, hd⟩ := bind_inv hd
  cases hd
  exact ⟨rfl, s, hp, forall2_weaken (mapM_each hds) fun sel hsel d hd => (told_data h hseg hb hs (hw sel hsel)).1 d hd⟩

/-- C58: the context can be given whenever each selection ends nowhere before it begins. -/
theorem C58_given {w : World} {P : World → CoreOp → Prop} (h : CoreHistory P w) {env : Env} (hseg : IsSegmentation env.seg)
    {c : Nat} {ctx : ClientContext} {m : Assoc Str (List Selection)} (hc : w.clients.map.get c = some ctx)
    (hm : ctx.selections.get ctx.view.key = some m)
    (hin : ∀ b l, m.get b = some l → ∃ s, HeldText w b l s ∧ ∀ sel ∈ l, ∃ a e, SelectedTo env.seg s sel a e ∧ a ≤ e) :
    ∃ data, w.getContext env c = .ok (ctx.view.key, data) := by
  have hone := World.maps_history World.oneEach_stable h c ctx hc _ _ hm
  unfold World.getContext
  rw [Assoc.at_ok hc, except_bind_ok, Assoc.at_ok hm, except_bind_ok]
  obtain ⟨data, hd, _⟩ := mapM_forall2 (l := m) (f := fun kv => do
      let d ← kv.2.mapM (w.selectionData env kv.1)
      return (kv.1, d)) (P := fun _ _ => True) (by
    intro kv hkv
    obtain ⟨s, ⟨buf, hb, hs, hw⟩, hall⟩ := hin kv.1 kv.2 (Assoc.mem_get hone.1 hkv)
    obtain ⟨ds, hds, _⟩ := mapM_forall2 (l := kv.2) (f := w.selectionData env kv.1) (P := fun _ _ => True) (by
      intro sel hsel
      obtain ⟨a, e, h1, h2⟩ := hall sel hsel
      obtain ⟨d, hd⟩ := (told_data h hseg hb hs (hw sel hsel)).2 a e h1 h2
      exact ⟨d, hd, trivial⟩)
    exact ⟨(kv.1, ds), by rw [hds]; rfl, trivial⟩)
  exact ⟨data, by rw [hd]; rfl⟩

/-! ## Cases: `"a\nbé\nc\n"` -/

/-- the cursor is on `b` of the second line, at column 1 -/
example : (worldE.getContext envE 1).toOption.map (fun r => (r.1, r.2.map fun d => (d.1, d.2))) =
    some (str!"e{*}", [(['e'], [⟨(2, ⟨2, 1⟩), (2, ⟨2, 1⟩), [98]⟩])]) := by decide +kernel

theorem worldE_held : ∃ ctx m, worldE.clients.map.get 1 = some ctx ∧ ctx.selections.get ctx.view.key = some m ∧
    m = [(['e'], [⟨2, 2, 1⟩])] ∧ (∀ b l, m.get b = some l → HeldText worldE b l textE ∧ ∀ sel ∈ l, sel = ⟨2, 2, 1⟩) := by
  have h : (worldE.clients.map.get 1).bind (fun ctx => ctx.selections.get ctx.view.key) = some [(['e'], [⟨2, 2, 1⟩])] := by
    decide +kernel
  obtain ⟨ctx, hc, hm⟩ := Option.bind_eq_some_iff.1 h
  refine ⟨ctx, _, hc, hm, rfl, ?_⟩
  intro b l hl
  simp only [Assoc.get] at hl
  split at hl
  · rename_i e
    subst e; cases hl
    have hbuf : ∃ b, worldE.buffers.get ['e'] = some b ∧ b.content.content = textE := by
      have h : (worldE.buffers.get ['e']).map (fun b => b.content.content) = some textE := by decide +kernel
      exact Option.map_eq_some_iff.1 h
    obtain ⟨buf, hb, ht⟩ := hbuf
    exact ⟨⟨buf, hb,
      (shows_iff (reachable_ready (forward_any (World.texts_history worldE_history _ buf hb))).wf).2 ht,
      fun sel hsel => by rw [List.mem_singleton.1 hsel]; exact ⟨by decide, by decide⟩⟩,
      fun sel hsel => List.mem_singleton.1 hsel⟩
  · cases hl

/-- where the selection of `b` ends: the hypothesis of `C58_given` -/
theorem worldE_selected : SelectedTo clusters textE ⟨2, 2, 1⟩ 2 3 := by
  have hg : clusters [98, 195, 169] = [[98], [195, 169]] := by simp [clusters]
  have hr : ReadAs clusters textE 2 2 1 :=
    ⟨_, _, _, textE_line, .inr (.inr ⟨by decide, [], [98], [[195, 169]], 0, hg, by decide, rfl, rfl⟩)⟩
  have hr3 : ReadAs clusters textE 3 2 2 :=
    ⟨_, _, _, textE_line, .inr (.inr ⟨by decide, [[98]], [195, 169], [], 0, hg, by decide, rfl, rfl⟩)⟩
  have hend : ¬ ReadAs clusters textE (textE.length - 1) 2 1 := by
    rintro ⟨pre, line, suf, hl, h⟩
    obtain ⟨e1, e2, e3⟩ := hl.unique textE_line
    subst e1; subst e2; subst e3
    rcases h with ⟨_, h, _⟩ | ⟨h, _⟩ | ⟨_, before, g, after, k, h2, h3, h4, h5⟩
    · revert h; decide
    · cases h
    · have hb : before = [] := List.length_eq_zero_iff.1 (by omega)
      subst hb
      rw [hg] at h2
      simp only [List.nil_append, List.cons.injEq] at h2
      rw [← h2.1] at h3
      simp [textE] at h4 h3
      omega
  refine ⟨rfl, .inr ⟨by decide, 1, 2, 2, 2, hr, ⟨2, 1, 2, hr, ⟨_, _, _, textE_line, by decide, by rw [hg]; decide, by rw [hg]; rfl⟩,
    .right hend (b := 98) rfl (by decide) hr3⟩, ⟨_, _, _, textE_line, by decide, by rw [hg]; rfl⟩, by decide⟩⟩

example : ∃ key data, worldE.getContext envE 1 = .ok (key, data) ∧ data.length = 1 := by
  obtain ⟨ctx, m, hc, hm, hmm, hin⟩ := worldE_held
  obtain ⟨data, hr⟩ := C58_given worldE_history (env := envE) clusters_ok hc hm fun b l hl => by
    obtain ⟨hh, hsel⟩ := hin b l hl
    exact ⟨textE, hh, fun sel h => by rw [hsel sel h]; exact ⟨2, 3, worldE_selected, by decide⟩⟩
  obtain ⟨_, h2⟩ := C58_any worldE_history (env := envE) clusters_ok hc hm (fun b l hl => ⟨textE, (hin b l hl).1⟩) hr
  exact ⟨_, data, hr, by rw [← forall2_length h2, hmm]; rfl⟩

/-- C58 (refuted part): a client whose cursor is on a character of two bytes is told that the selected text is empty. -/
theorem C58_wide_refuted : ∃ w, CoreHistory (fun _ _ => True) w ∧
    (w.getContext envE 1).toOption = some (str!"e{*}", [(['e'], [⟨(3, ⟨2, 2⟩), (3, ⟨2, 2⟩), []⟩])]) := by
  have hr : (worldE.moveCursor envE 1 .right false).toOption.isSome = true := by decide +kernel
  refine ⟨final (worldE.moveCursor envE 1 .right false), .step (op := .move 1 .right false) (env := envE) worldE_history trivial
    (fun _ => rfl) (final_ok hr), by decide +kernel⟩

end Ced.Props

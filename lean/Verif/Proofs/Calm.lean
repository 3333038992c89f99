import Verif.Props.View
import Verif.Proofs.CoreViews
import Verif.Proofs.CoreTidy
import Verif.Proofs.CoreText
import Verif.Proofs.CoreSel
import Verif.Spec.Tui

/-! Auxiliary lemmas: in a calm state rendering and logging never fail. -/

namespace Ced
open Spec Props PieceTable

/-- a kind of sessions: the ways to divide lines into clusters, the texts, the names and the selections that occur in it -/
structure Kind where
  seg : Segmentation → Prop
  text : Bytes → Prop
  name : Str → Prop
  sel : Bytes → Selection → Prop
  lit : ∀ {s : Str}, (s.all fun c => decide (c.val < 128)) = true → name s
  app : ∀ {a b : Str}, name a → name b → name (a ++ b)
  enc : ∀ {s : Str}, name s → text (Str.encode s)
  nl : text [NL]
  joined : ∀ {a b : Bytes}, text a → text b → text (a ++ b)
  fresh : ∀ {s : Bytes}, text s → EndsWithNewline s → sel s Selection.new
  longer : ∀ {s x : Bytes} {q : Selection}, text s → EndsWithNewline s → text x → EndsWithNewline x → sel s q → sel (s ++ x) q
  draws : ∀ {g : Segmentation} {t : PieceTable} {q : Selection}, seg g → ForwardHistory t → text t.content →
    EndsWithNewline t.content → sel t.content q →
    ∃ rs, (do let (a, b) ← selectionEnds g t q; selectedRanges a b : R _) = .ok rs

/-- a buffer that can be drawn, wherever the selections are -/
structure Good (K : Kind) (b : Buffer) : Prop where
  history : ForwardHistory b.content
  text : K.text b.content.content
  ends : EndsWithNewline b.content.content

/-- the selections can be drawn -/
def Fits (K : Kind) (b : Buffer) (ss : List Selection) : Prop := ∀ sel ∈ ss, K.sel b.content.content sel

/-- every lens of the view shows a whole buffer -/
def AllWhole (v : View) : Prop := ∀ bg ∈ v, bg.2 ≠ [] ∧ ∀ f ∈ bg.2, f = .whole

theorem mem_insertSorted {f g : Focus} {l : LensGroup} (h : g ∈ LensGroup.insertSorted f l) : g = f ∨ g ∈ l := by
  induction l with
  | nil => simp only [LensGroup.insertSorted, List.mem_singleton] at h; exact Or.inl h
  | cons x l ih =>
    simp only [LensGroup.insertSorted] at h
    split at h
    · rcases List.mem_cons.1 h with h | h
      · exact Or.inr (by simp [h])
      · rcases ih h with h | h
        · exact Or.inl h
        · exact Or.inr (by simp [h])
    · rcases List.mem_cons.1 h with h | h
      · exact Or.inl h
      · exact Or.inr h

theorem mem_sort {g : Focus} {l : LensGroup} (h : g ∈ LensGroup.sort l) : g ∈ l := by
  induction l with
  | nil => exact h
  | cons x l ih =>
    rcases mem_insertSorted h with h | h
    · simp [h]
    · simp [ih h]

theorem insertSorted_ne (f : Focus) (l : LensGroup) : LensGroup.insertSorted f l ≠ [] := by
  cases l with
  | nil => simp [LensGroup.insertSorted]
  | cons x l => simp only [LensGroup.insertSorted]; split <;> simp

theorem sort_ne {l : LensGroup} (h : l ≠ []) : LensGroup.sort l ≠ [] := by
  cases l with
  | nil => exact absurd rfl h
  | cons x l => exact insertSorted_ne _ _

theorem allWhole_group {g : LensGroup} (h : ∀ f ∈ g, f = .whole) : g.add .whole ≠ [] ∧ ∀ f ∈ g.add .whole, f = .whole := by
  refine ⟨sort_ne (by simp), ?_⟩
  intro f hf
  rcases List.mem_append.1 (mem_sort hf) with h1 | h1
  · exact h f h1
  · simpa using h1

theorem allWhole_add (v : View) (b : Str) (h : AllWhole v) : AllWhole (v.addLens b .whole) := by
  have one := allWhole_group (g := []) (by simp)
  induction v with
  | nil =>
    intro bg hb
    simp only [View.addLens, List.mem_singleton] at hb
    rw [hb]; exact one
  | cons x v ih =>
    have hx := h x (by simp)
    have hv : AllWhole v := fun bg hb => h bg (by simp [hb])
    intro bg hb
    simp only [View.addLens] at hb
    split at hb
    · rcases List.mem_cons.1 hb with rfl | hb
      · exact allWhole_group hx.2
      · exact hv bg hb
    · split at hb
      · rcases List.mem_cons.1 hb with rfl | hb
        · exact one
        · exact h bg hb
      · rcases List.mem_cons.1 hb with rfl | hb
        · exact hx
        · exact ih hv bg hb

theorem allWhole : ViewClosed AllWhole where
  empty := by intro bg hb; cases hb
  add := allWhole_add
  remove := by
    intro v b h bg hb
    exact h bg (List.mem_filter.1 hb).1

/-- `mapM` succeeds when every element does -/
theorem mapM_total {α β : Type} {f : α → R β} {l : List α} (h : ∀ x ∈ l, ∃ y, f x = .ok y) : ∃ ys, l.mapM f = .ok ys := by
  induction l with
  | nil => exact ⟨[], rfl⟩
  | cons x l ih =>
    obtain ⟨y, e⟩ := h x (by simp)
    obtain ⟨ys, e'⟩ := ih fun z hz => h z (by simp [hz])
    exact ⟨y :: ys, by rw [List.mapM_cons, e, e']; rfl⟩

/-- `foldlM` succeeds when every step does, along an invariant -/
theorem foldlM_total {α β : Type} {f : β → α → R β} {P : β → Prop} {l : List α} {b : β} (h0 : P b)
    (h : ∀ x ∈ l, ∀ a, P a → ∃ a', f a x = .ok a' ∧ P a') : ∃ b', l.foldlM f b = .ok b' ∧ P b' := by
  induction l generalizing b with
  | nil => exact ⟨b, rfl, h0⟩
  | cons x l ih =>
    obtain ⟨a, e, hp⟩ := h x (by simp) b h0
    obtain ⟨b', e', hp'⟩ := ih hp fun y hy => h y (by simp [hy])
    exact ⟨b', by rw [List.foldlM_cons, e]; exact e', hp'⟩

theorem ends_ne {s : Bytes} (h : EndsWithNewline s) : s ≠ [] := by
  intro e; rw [e] at h; cases h

theorem text_total {t : PieceTable} (hw : t.WF) : ∃ s, t.text = .ok s := by
  have key : ∀ (ps : Pieces) (off : Nat), Chain t.original t.added off ps →
      ∃ r, (ps.mapM (fun p => do
        let bs ← sliceR (t.buffer p) p.start p.stop
        pure (utf8Lossy bs)) : R (List Bytes)) = .ok r := by
    intro ps
    induction ps with
    | nil => intro off _; exact ⟨[], rfl⟩
    | cons q qs ih =>
      intro off hch
      obtain ⟨h1, h2, h3, h4⟩ := hch
      have hs := sliceR_piece h3 (Nat.zero_le q.length) (Nat.le_refl _)
      simp only [Nat.add_zero] at hs
      obtain ⟨r, hr⟩ := ih _ h4
      rw [List.mapM_cons]
      simp only [Piece.stop, except_pure] at hr ⊢
      rw [hs, hr]
      exact ⟨_, rfl⟩
  obtain ⟨r, hr⟩ := key t.pieces 0 hw.pieces
  unfold text
  rw [hr]
  exact ⟨_, rfl⟩

/-- a lens of a whole buffer can be drawn -/
theorem lens_total {K : Kind} {seg : Segmentation} (hseg : K.seg seg) {buffers : Assoc Str Buffer}
    {sels : Option (Assoc Str (List Selection))} {name : Str} {b : Buffer} (hb : buffers.get name = some b) (hg : Good K b)
    (hf : ∀ m ss, sels = some m → m.get name = some ss → Fits K b ss) :
    ∃ r, lensParams seg buffers sels name .whole = .ok r := by
  have hw := (reachable_ready (forward_any hg.history)).wf
  have hsel : ∀ sel ∈ ((sels.bind fun ss => Assoc.get ss name).getD []), K.sel b.content.content sel := by
    cases hs : sels with
    | none => simp
    | some m =>
      simp only [Option.bind_some]
      cases hm : m.get name with
      | none => simp
      | some ss => exact hf m ss hs hm
  unfold lensParams
  rw [Assoc.at_ok hb, except_bind_ok]
  obtain ⟨ys, e⟩ := mapM_total (f := fun s => (do
      let (a, b) ← selectionEnds seg b.content s
      selectedRanges a b : R _)) (l := (sels.bind fun ss => Assoc.get ss name).getD [])
    fun sel hm => K.draws hseg hg.history hg.text hg.ends (hsel sel hm)
  simp only at e ⊢
  rw [e]
  obtain ⟨x, hx⟩ := text_total hw
  simp only [except_bind_ok, Buffer.lines, PieceTable.lines, hx, except_pure]
  exact ⟨_, rfl⟩

/-- one item of a view, drawn -/
def drawStep (seg : Segmentation) (buffers : Assoc Str Buffer) (sels : Option (Assoc Str (List Selection)))
    (acc : List ViewParamsItem × Option ViewParamsItem) (item : ViewItem) : R (List ViewParamsItem × Option ViewParamsItem) :=
  match item with
  | .header b f => do
    let h ← headerParams buffers b f
    return (acc.1 ++ acc.2.toList, some h)
  | .lens b f => do
    let l ← lensParams seg buffers sels b f
    return (acc.1, acc.2.map fun c => { c with lenses := c.lenses ++ [l] })

/-- a view of good buffers can be drawn -/
theorem render_total {K : Kind} {seg : Segmentation} (hseg : K.seg seg) {buffers : Assoc Str Buffer}
    {sels : Option (Assoc Str (List Selection))} {v : View} (hv : AllWhole v)
    (hb : ∀ n ∈ v.buffers, ∃ b, buffers.get n = some b ∧ Good K b)
    (hf : ∀ n m ss b, n ∈ v.buffers → sels = some m → m.get n = some ss → buffers.get n = some b → Fits K b ss) :
    ∃ items, v.toNotificationParams seg buffers sels = .ok items := by
  have hvec : ∃ parts, v.mapM (fun bg => (do
      let f ← LensGroup.focus bg.2
      return ViewItem.header bg.1 f :: bg.2.map (ViewItem.lens bg.1) : R _)) = .ok parts ∧
      ∀ p ∈ parts, ∃ n ∈ v.buffers, ∀ i ∈ p, i = .header n .whole ∨ i = .lens n .whole := by
    obtain ⟨ys, e, h1, _⟩ := mapM_exists (l := v) (f := fun bg => (do
      let f ← LensGroup.focus bg.2
      return ViewItem.header bg.1 f :: bg.2.map (ViewItem.lens bg.1) : R _))
      (P := fun bg p => ∀ i ∈ p, i = .header bg.1 .whole ∨ i = .lens bg.1 .whole) (by
        intro bg hbg
        obtain ⟨hne, hall⟩ := hv bg hbg
        obtain ⟨f, fs, hg⟩ := List.exists_cons_of_ne_nil hne
        have hw : f = .whole := hall f (by simp [hg])
        obtain ⟨y, hy⟩ : ∃ y, (f :: fs).getLast? = some y := by
          rw [← Option.isSome_iff_exists]; simp
        refine ⟨ViewItem.header bg.1 .whole :: bg.2.map (ViewItem.lens bg.1), ?_, ?_⟩
        · unfold LensGroup.focus
          rw [hg, hy, hw]
          rfl
        · intro i hi
          rcases List.mem_cons.1 hi with h | h
          · exact Or.inl h
          · obtain ⟨f', hf', rfl⟩ := List.mem_map.1 h
            rw [hall f' hf']
            exact Or.inr rfl)
    refine ⟨ys, e, ?_⟩
    intro p hp
    obtain ⟨bg, hbg, hP⟩ := h1 p hp
    exact ⟨bg.1, List.mem_map_of_mem hbg, hP⟩
  obtain ⟨parts, e, hparts⟩ := hvec
  unfold View.toNotificationParams View.asVec
  rw [e]
  simp only [except_bind_ok, except_pure]
  obtain ⟨r, er, _⟩ := foldlM_total (P := fun _ => True) (l := parts.flatten) (b := (([], none) : List ViewParamsItem × Option ViewParamsItem))
    (f := drawStep seg buffers sels) trivial (by
    intro item hi acc _
    obtain ⟨p, hp, hip⟩ := List.mem_flatten.1 hi
    obtain ⟨n, hn, hall⟩ := hparts p hp
    obtain ⟨b, hbn, hgood⟩ := hb n hn
    rcases hall item hip with rfl | rfl
    · have hst := forward_steady hgood.history
      have hc := (C08_lines hst (shows_content (reachable_ready (steady_any hst)).wf) (ends_ne hgood.ends)).1
      simp only [drawStep, headerParams, Assoc.at_ok hbn, except_bind_ok, hc, except_pure]
      exact ⟨_, rfl, trivial⟩
    · obtain ⟨r, hr⟩ := lens_total hseg hbn hgood (sels := sels) (fun m ss h1 h2 => hf n m ss b hn h1 h2 hbn)
      simp only [drawStep, hr, except_bind_ok, except_pure]
      exact ⟨_, rfl, trivial⟩)
  have er' : List.foldlM (drawStep seg buffers sels) ([], none) parts.flatten = .ok r := er
  refine ⟨r.1 ++ r.2.toList, ?_⟩
  show (List.foldlM (drawStep seg buffers sels) ([], none) parts.flatten >>= fun r => pure (r.1 ++ r.2.toList)) = _
  rw [er']
  rfl

namespace World
variable {K : Kind} {env : Env} {w w' : World}

/-- the views that may have to be drawn: the registered ones and those of the clients -/
def Live (w : World) (v : View) : Prop :=
  (∃ k, w.views.map.get k = some v) ∨ ∃ c ctx, w.clients.map.get c = some ctx ∧ ctx.view = v

/-- what drawing depends on -/
structure Drawn (K : Kind) (w : World) : Prop where
  good : ∀ n b, w.buffers.get n = some b → Good K b
  name : ∀ n, w.buffers.has n = true → K.name n
  fits : ∀ v, Live w v → ∀ c ctx m n ss b, w.clients.map.get c = some ctx → ctx.selections.get v.key = some m →
    n ∈ v.buffers → m.get n = some ss → w.buffers.get n = some b → Fits K b ss

theorem params_total (hseg : K.seg env.seg) (d : Drawn K w) (a : AllViews AllWhole w) {c : Nat} {ctx : ClientContext}
    (hc : w.clients.map.get c = some ctx) (hb : ∀ n ∈ ctx.view.buffers, w.buffers.has n = true) :
    ∃ p, w.viewParams env c = .ok p := by
  obtain ⟨items, e⟩ := render_total hseg (v := ctx.view) (buffers := w.buffers) (sels := ctx.selections.get ctx.view.key)
    (a.clients c ctx hc) (by
      intro n hn
      obtain ⟨b, hb⟩ := Assoc.has_iff.1 (hb n hn)
      exact ⟨b, hb, d.good n b hb⟩) (by
      intro n m ss b hnv hm hn hb
      exact d.fits ctx.view (Or.inr ⟨c, ctx, hc, rfl⟩) c ctx m n ss b hc hm hnv hn hb)
  unfold viewParams
  rw [Assoc.at_ok hc, except_bind_ok, e]
  exact ⟨_, rfl⟩

theorem notify_total (hseg : K.seg env.seg) (d : Drawn K w) (a : AllViews AllWhole w) {ids : List Nat}
    (h : ∀ c ∈ ids, ∃ ctx, w.clients.map.get c = some ctx ∧ ∀ n ∈ ctx.view.buffers, w.buffers.has n = true) :
    ∃ o, w.notifyViewUpdate env ids = .ok { w with out := o } := by
  obtain ⟨ps, e⟩ := mapM_total (f := w.viewParams env) (l := ids) (by
    intro c hc
    obtain ⟨ctx, h1, h2⟩ := h c hc
    exact params_total hseg d a h1 h2)
  unfold notifyViewUpdate
  rw [e, except_bind_ok, except_pure, viewUpdate_eq]
  exact ⟨_, rfl⟩

theorem live_same (h1 : w'.clients.map = w.clients.map) (h2 : w'.views.map = w.views.map) (v : View) : Live w' v ↔ Live w v := by
  unfold Live; rw [h1, h2]

theorem drawn_same (d : Drawn K w) (h1 : w'.clients.map = w.clients.map) (h2 : w'.views.map = w.views.map)
    (h3 : w'.buffers = w.buffers) : Drawn K w' := by
  refine ⟨by rw [h3]; exact d.good, by rw [h3]; exact d.name, ?_⟩
  intro v hv
  rw [live_same h1 h2] at hv
  rw [h1, h3]
  exact d.fits v hv

/-- one buffer is replaced by a good one in which the selections are still inside -/
theorem drawn_set (d : Drawn K w) {name : Str} {b : Buffer} (hn : K.name name) (hb : Good K b)
    (hf : ∀ v, Live w v → ∀ c ctx m ss, w.clients.map.get c = some ctx → ctx.selections.get v.key = some m →
      name ∈ v.buffers → m.get name = some ss → Fits K b ss) (o : List Broadcast) :
    Drawn K { w with buffers := w.buffers.set name b, out := o } := by
  refine ⟨?_, ?_, ?_⟩
  · intro n b' h
    have h : Assoc.get (w.buffers.set name b) n = some b' := h
    rw [Assoc.get_set] at h
    split at h
    · cases h; exact hb
    · exact d.good n b' h
  · intro n h
    have h : Assoc.has (w.buffers.set name b) n = true := h
    rw [Assoc.has_set] at h
    by_cases e : n = name
    · rw [e]; exact hn
    · exact d.name n (by simpa [e] using h)
  · intro v hv c ctx m n ss b' hc hk hnv hm hb'
    have hv : Live w v := hv
    have hb2 : Assoc.get (w.buffers.set name b) n = some b' := hb'
    rw [Assoc.get_set] at hb2
    by_cases e : n = name
    · rw [if_pos e] at hb2
      rw [← Option.some.inj hb2]
      rw [e] at hnv hm
      exact hf v hv c ctx m ss hc hk hnv hm
    · rw [if_neg e] at hb2
      exact d.fits v hv c ctx m n ss b' hc hk hnv hm hb2

end World

theorem good_scratch {K : Kind} (name : Str) {x : Bytes} (h : x = [] ∨ (K.text x ∧ EndsWithNewline x)) : Good K (Buffer.newScratch name x) := by
  have key : ∀ y : Bytes, K.text y → EndsWithNewline y → Good K { source := .scratch name, content := PieceTable.withText y, lastSync := none, modified := false } := by
    intro y ha he
    have hne := ends_ne he
    have hc := (withText_facts hne).2.1
    exact ⟨.withText hne trivial, by rw [hc]; exact ha, by rw [hc]; exact he⟩
  unfold Buffer.newScratch
  rcases h with rfl | ⟨ha, he⟩
  · exact key [NL] K.nl rfl
  · rw [if_neg (ends_ne he)]
    exact key x ha he

theorem append_content {t : PieceTable} (h : ForwardHistory t) {x : Bytes} (hx : x ≠ []) : (t.append x).content = t.content ++ x :=
  (append_eq (reachable_ready (forward_any h)).wf hx).1.content

theorem good_append {K : Kind} {b : Buffer} (h : Good K b) {x : Bytes} (ha : K.text x) (he : EndsWithNewline x) : Good K (b.append x) := by
  have hx := ends_ne he
  have hc : (b.append x).content.content = b.content.content ++ x := append_content h.history hx
  refine ⟨World.forward_append h.history hx, ?_, ?_⟩
  · rw [hc]; exact K.joined h.text ha
  · rw [hc]
    unfold EndsWithNewline at *
    rw [List.getLast?_append, he]; rfl

theorem fits_append {K : Kind} {b : Buffer} (h : Good K b) {ss : List Selection} (hf : Fits K b ss) {x : Bytes} (ha : K.text x)
    (he : EndsWithNewline x) : Fits K (b.append x) ss := by
  have hc : (b.append x).content.content = b.content.content ++ x := append_content h.history (ends_ne he)
  intro sel hs
  rw [hc]
  exact K.longer h.text h.ends ha he (hf sel hs)

theorem encode_ascii {s : Str} (h : AsciiStr s) : Ascii (Str.encode s) := by
  intro x hx
  unfold Str.encode at hx
  obtain ⟨c, hc, hx⟩ := List.mem_flatMap.1 hx
  have hv := h c hc
  have hlt : c.val.toNat < 128 := by
    have := UInt32.lt_iff_toNat_lt.1 hv; simpa using this
  unfold String.utf8EncodeChar at hx
  simp only [show c.val.toNat ≤ 127 by omega, if_true, List.mem_singleton] at hx
  subst hx
  rw [UInt8.lt_iff_toNat_lt]
  show c.val.toNat % 256 < 128
  omega

theorem encode_ends (s : Str) : EndsWithNewline (Str.encode (s ++ ['\n'])) := by
  unfold EndsWithNewline Str.encode
  rw [List.flatMap_append, List.getLast?_append]
  rfl

end Ced

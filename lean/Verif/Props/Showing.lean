import Verif.Spec.Showing
import Verif.Props.MotionAny
import Verif.Props.Render
import Verif.Props.CoreMove
import Verif.Proofs.Calm

/-!
# When a client can be shown its view, in texts of any characters (C88)
-/

namespace Ced.Props
open Spec PieceTable

/-- lines and columns read off an offset count from 1 -/
theorem readAs_pos {seg : Segmentation} (hseg : IsSegmentation seg) {s : Bytes} {o n c : Nat} (h : ReadAs seg s o n c) :
    1 ≤ n ∧ 1 ≤ c := by
  obtain ⟨pre, line, suf, hl⟩ := readAs_line h
  exact ⟨hl.pos, (readAs_lt hseg h).2⟩

theorem ranges_total {a b : Coords} (h1 : 1 ≤ a.l) (h2 : 1 ≤ a.c) (h3 : 1 ≤ b.l) (h4 : 1 ≤ b.c) :
    ∃ rs, selectedRanges a b = .ok rs := by
  unfold selectedRanges
  split
  · rw [subChecked_ok h2, subChecked_ok h4, subChecked_ok h1]; exact ⟨_, rfl⟩
  · rw [subChecked_ok h3]
    simp only [except_bind_ok]
    split
    · rw [subChecked_ok h2, subChecked_ok h1]; exact ⟨_, rfl⟩
    · apply mapM_total
      intro i hi
      rw [List.mem_range'_1] at hi
      rw [subChecked_ok h2, subChecked_ok h4, subChecked_ok (show 1 ≤ i by omega)]
      split
      · exact ⟨_, rfl⟩
      · split
        · exact ⟨_, rfl⟩
        · exact ⟨_, rfl⟩

section
variable {t : PieceTable} {seg : Segmentation}

/-- the start of the text is read as its first line and column -/
theorem read_start (hw : t.WF) (hn : t.NewlinesOk) (hseg : IsSegmentation seg) (hne : t.content ≠ []) :
    ReadAs seg t.content 0 1 1 := by
  obtain ⟨n, c, h⟩ := readAs_exists (seg := seg) hseg (List.length_pos_iff.2 hne)
  have e : t.offsetToCoord seg 0 = .ok (some ⟨1, 1⟩) := rfl
  rw [offsetToCoord_read hw hn hseg h] at e
  cases e
  exact h

theorem navigate_none (hw : t.WF) (hn : t.NewlinesOk) (hseg : IsSegmentation seg) (hne : t.content ≠ []) :
    Navigator.navigate seg t none = Navigator.navigate seg t (some ⟨1, 1⟩) := by
  obtain ⟨pre, line, suf, hl⟩ := readAs_line (read_start hw hn hseg hne)
  have e := navigate_cluster hw hn hseg (Nat.le_refl 1) hl
  rw [if_pos (by omega)] at e
  have e' : Navigator.fromPosition seg t Navigator.BEGIN = .ok (some ⟨⟨1, 1⟩, 1⟩) := e
  unfold Navigator.navigate
  simp only [Navigator.new, e', except_bind_ok, unwrapR]
  exact e.symm

theorem navigate_empty (hw : t.WF) (hn : t.NewlinesOk) (hne : t.content = []) :
    ∃ e, Navigator.navigate seg t none = .error e := by
  have hn' : t.newlines = newlinePositions t.content := hn
  have hl : t.newlines = [] := by rw [hn', hne]; rfl
  have hlen : t.len = 0 := by rw [hw.len_eq, hne]; rfl
  have hcount : t.lineCount = .ok 1 := by
    unfold PieceTable.lineCount
    rw [maxOffset_eq hw, hl]; rfl
  have hlb : t.lineBytes 1 = .ok none := by
    unfold lineBytes
    rw [hcount]
    simp only [except_bind_ok]
    rw [if_neg (by omega), if_pos trivial, hl, hlen]
    have hcl : t.content.length = total t.pieces := chain_content_length hw.pieces
    rw [hne] at hcl
    unfold PieceTable.range
    rw [getNode_none hw.pieces (by simp at hcl; omega)]
  refine ⟨.explicit, ?_⟩
  unfold Navigator.navigate Navigator.new Navigator.fromPosition Navigator.BEGIN coordToOffset
  simp only [hcount, hlb, except_bind_ok]
  rfl

/-- one motion to the right, from the coordinates of an offset -/
def step (seg : Segmentation) (t : PieceTable) (c : Option Coords) : R Position := do
  let nv ← Navigator.navigate seg t c
  let nv ← unwrapR nv
  let nv ← nv.next seg t
  nv.pos seg t

theorem pos_ge {nv : Navigator} {q : Position} (hw : t.WF) (hn : t.NewlinesOk) (hseg : IsSegmentation seg)
    (hne : t.content ≠ []) (h : nv.pos seg t = .ok q) : 1 ≤ q.coords.l ∧ 1 ≤ q.coords.c := by
  obtain ⟨⟨pre, line, suf, hl, h1, _⟩, _⟩ :=
    (Navigator.pos_any (n := nv.cursor.l) (c := nv.cursor.c) (w := nv.targetCol) hw hn hseg hne).2 q h
  have hp := hl.pos
  unfold Navigator.pos at h
  obtain ⟨lb, _, h⟩ := bind_inv h
  dsimp only at h
  split at h
  · cases h
  · obtain ⟨o, _, h⟩ := bind_inv h
    split at h
    · cases h
    · obtain ⟨g, _, h⟩ := bind_inv h
      cases h
      simp only
      omega

theorem step_iff (hw : t.WF) (hn : t.NewlinesOk) (hseg : IsSegmentation seg) {e m c : Nat}
    (hr : ReadAs seg t.content e m c) :
    (∃ q, step seg t (some ⟨m, c⟩) = .ok q) ↔
      ∃ n w o, Headed seg t.content e c .right n w ∧ LandsOn seg t.content n w o ∧ o < t.content.length := by
  have hne : t.content ≠ [] := by
    intro h; have := (readAs_lt hseg hr).1; rw [h] at this; simp at this
  obtain ⟨pre, line, suf, hl⟩ := readAs_line hr
  have hc1 := (readAs_lt hseg hr).2
  unfold step
  rw [navigate_cluster hw hn hseg hc1 hl]
  simp only [except_bind_ok]
  by_cases hcc : c ≤ (seg line).length + 1
  · rw [if_pos hcc]
    simp only [unwrapR, except_bind_ok]
    have hcl : ClusterAt seg t.content (pre.length + ((seg line).take (c - 1)).flatten.length) m c :=
      ⟨pre, line, suf, hl, hc1, hcc, rfl⟩
    obtain ⟨k1, k2⟩ := Navigator.move_any (tc := c) hw hn hseg hne hcl .right
    constructor
    · rintro ⟨q, h⟩
      obtain ⟨nv, hm, h⟩ := bind_inv h
      obtain ⟨l1, l2⟩ := (Navigator.pos_any (n := nv.cursor.l) (c := nv.cursor.c) (w := nv.targetCol) hw hn hseg hne).2 q h
      exact ⟨_, _, _, ⟨m, c, _, hr, hcl, k2 nv hm⟩, l1, l2⟩
    · rintro ⟨n, w, o, ⟨m', c', p', hr', hcl', hd⟩, hlo, hlt⟩
      obtain ⟨rfl, rfl⟩ := readAs_unique hw hn hseg hr hr'
      have hpe : p' = pre.length + ((seg line).take (c - 1)).flatten.length := by
        have := (coordToOffset_cluster hw hn hseg hcl').symm.trans (coordToOffset_cluster hw hn hseg hcl)
        simpa using this
      subst hpe
      obtain ⟨c'', e⟩ := k1 n w hd
      have e : Navigator.next seg t ⟨⟨m, c⟩, c⟩ = .ok ⟨⟨n, c''⟩, w⟩ := e
      rw [e]
      simp only [except_bind_ok]
      obtain ⟨q, e2, _⟩ := (Navigator.pos_any (c := c'') hw hn hseg hne).1 o hlo hlt
      exact ⟨q, e2⟩
  · rw [if_neg hcc]
    constructor
    · rintro ⟨q, h⟩; cases h
    · rintro ⟨n, w, o, ⟨m', c', p', hr', ⟨pre', line', suf', hl', k1, k2, _⟩, _⟩, _⟩
      obtain ⟨rfl, rfl⟩ := readAs_unique hw hn hseg hr hr'
      obtain ⟨_, e, _⟩ := hl.unique hl'
      rw [e] at k2
      exact absurd k2 hcc

/-- The ends of a selection can be computed exactly when it can be shown. -/
theorem ends_iff (hw : t.WF) (hn : t.NewlinesOk) (hseg : IsSegmentation seg) (sel : Selection) :
    (∃ rs, (do let (a, b) ← selectionEnds seg t sel; selectedRanges a b : R _) = .ok rs) ↔
      CanShow seg t.content (min sel.anchor sel.cursor) (max sel.anchor sel.cursor) := by
  have hf : sel.first = min sel.anchor sel.cursor := by unfold Selection.first; split <;> omega
  have hla : sel.last = max sel.anchor sel.cursor := by unfold Selection.last; split <;> omega
  unfold selectionEnds CanShow
  rw [hf, hla, maxOffset_eq hw]
  have hab : min sel.anchor sel.cursor ≤ max sel.anchor sel.cursor := by omega
  generalize min sel.anchor sel.cursor = a at *
  generalize max sel.anchor sel.cursor = b at *
  have hu : ∀ x : Coords, unwrapR (some x) = .ok x := fun _ => rfl
  by_cases hne : t.content = []
  · rcases Nat.eq_zero_or_pos a with rfl | ha
    · have h0 : t.offsetToCoord seg 0 = .ok (some ⟨1, 1⟩) := rfl
      rw [h0]
      simp only [except_bind_ok, hu, hne, List.length_nil]
      rcases Nat.eq_zero_or_pos b with rfl | hb
      · rw [if_pos rfl, h0]
        simp only [except_bind_ok, hu]
        refine ⟨fun _ => .inl ⟨trivial, trivial, trivial⟩, fun _ => ?_⟩
        exact ranges_total (a := ⟨1, 1⟩) (b := ⟨1, 2⟩) (Nat.le_refl _) (Nat.le_refl _) (Nat.le_refl _) (by decide)
      · rw [if_neg (by omega), offsetToCoord_past hw (by rw [hne]; simp) hb]
        obtain ⟨e, he⟩ := navigate_empty (seg := seg) hw hn hne
        simp only [except_bind_ok, he]
        constructor
        · rintro ⟨rs, h⟩; cases h
        · rintro (⟨_, _, h⟩ | ⟨h, _⟩) <;> omega
    · rw [offsetToCoord_past hw (by rw [hne]; simp) ha]
      constructor
      · rintro ⟨rs, h⟩; cases h
      · rintro (⟨_, h, _⟩ | ⟨h, _⟩)
        · omega
        · rw [hne] at h; simp at h
  have hpos := List.length_pos_iff.2 hne
  suffices hmain : _ ↔ a < t.content.length ∧ (b + 1 = t.content.length ∨
          ∃ e m c n w o, (b < t.content.length → e = b) ∧ (t.content.length ≤ b → e = 0) ∧ ReadAs seg t.content e m c ∧
            Headed seg t.content e c .right n w ∧ LandsOn seg t.content n w o ∧ o < t.content.length) from
    hmain.trans ⟨.inr, fun h => h.resolve_left fun h => hne h.1⟩
  rcases Nat.lt_or_ge a t.content.length with ha | ha
  rotate_left
  · rw [offsetToCoord_past hw (by omega) (by omega)]
    constructor
    · rintro ⟨rs, h⟩; cases h
    · rintro ⟨h, _⟩; omega
  obtain ⟨n1, c1, hr1⟩ := readAs_exists (seg := seg) hseg ha
  obtain ⟨g1, g2⟩ := readAs_pos hseg hr1
  rw [offsetToCoord_read hw hn hseg hr1]
  simp only [except_bind_ok, hu]
  by_cases hb : b = t.content.length - 1
  · rw [if_pos hb]
    obtain ⟨n2, c2, hr2⟩ := readAs_exists (seg := seg) (s := t.content) (o := b) hseg (by omega)
    obtain ⟨g3, g4⟩ := readAs_pos hseg hr2
    rw [offsetToCoord_read hw hn hseg hr2]
    simp only [except_bind_ok, except_pure, hu]
    exact ⟨fun _ => ⟨ha, .inl (by omega)⟩, fun _ => ranges_total g1 g2 g3 (by simp)⟩
  rw [if_neg hb]
  have key : ∀ e m c, ReadAs seg t.content e m c → (b < t.content.length → e = b) → (t.content.length ≤ b → e = 0) →
      ∀ co, Navigator.navigate seg t co = Navigator.navigate seg t (some ⟨m, c⟩) →
      ((∃ rs, (do
        let nv ← Navigator.navigate seg t co
        let nv ← unwrapR nv
        let nv ← nv.next seg t
        let p ← nv.pos seg t
        selectedRanges ⟨n1, c1⟩ p.coords : R _) = .ok rs) ↔ a < t.content.length ∧ (b + 1 = t.content.length ∨
          ∃ e m c n w o, (b < t.content.length → e = b) ∧ (t.content.length ≤ b → e = 0) ∧ ReadAs seg t.content e m c ∧
            Headed seg t.content e c .right n w ∧ LandsOn seg t.content n w o ∧ o < t.content.length)) := by
    intro e m c hr he1 he2 co hco
    have hst := step_iff hw hn hseg hr
    rw [hco]
    have hbind : (do
        let nv ← Navigator.navigate seg t (some ⟨m, c⟩)
        let nv ← unwrapR nv
        let nv ← nv.next seg t
        let p ← nv.pos seg t
        selectedRanges ⟨n1, c1⟩ p.coords : R _) = (step seg t (some ⟨m, c⟩) >>= fun p => selectedRanges ⟨n1, c1⟩ p.coords) := by
      unfold step
      simp only [bind_assoc]
    rw [hbind]
    constructor
    · rintro ⟨rs, h⟩
      obtain ⟨q, hq, h⟩ := bind_inv h
      obtain ⟨n, w, o, k1, k2, k3⟩ := hst.1 ⟨q, hq⟩
      exact ⟨ha, .inr ⟨e, m, c, n, w, o, he1, he2, hr, k1, k2, k3⟩⟩
    · rintro ⟨_, h | ⟨e', m', c', n, w, o, j1, j2, j3, k1, k2, k3⟩⟩
      · omega
      have : e' = e := by
        rcases Nat.lt_or_ge b t.content.length with h | h
        · rw [he1 h, j1 h]
        · rw [he2 h, j2 h]
      subst this
      obtain ⟨rfl, rfl⟩ := readAs_unique hw hn hseg hr j3
      obtain ⟨q, hq⟩ := hst.2 ⟨n, w, o, k1, k2, k3⟩
      have hqq : ∃ nv : Navigator, nv.pos seg t = .ok q := by
        unfold step at hq
        obtain ⟨_, _, hq⟩ := bind_inv hq
        obtain ⟨_, _, hq⟩ := bind_inv hq
        obtain ⟨nv, _, hq⟩ := bind_inv hq
        exact ⟨nv, hq⟩
      obtain ⟨nv, hqq⟩ := hqq
      obtain ⟨p1, p2⟩ := pos_ge hw hn hseg hne hqq
      rw [hq]
      exact ranges_total g1 g2 p1 p2
  by_cases hlt : b < t.content.length
  · obtain ⟨m, c, hr⟩ := readAs_exists (seg := seg) hseg hlt
    rw [offsetToCoord_read hw hn hseg hr]
    have := key b m c hr (fun _ => rfl) (by omega) (some ⟨m, c⟩) rfl
    simpa only [except_bind_ok, except_pure, bind_assoc] using this
  · rw [offsetToCoord_past hw (by omega) (by omega)]
    have := key 0 1 1 (read_start hw hn hseg hne) (by omega) (fun _ => rfl) none (navigate_none hw hn hseg hne)
    simpa only [except_bind_ok, except_pure, bind_assoc] using this


theorem lens_iff {buffers : Assoc Str Buffer} (ht : ∀ n b, buffers.get n = some b → ForwardHistory b.content)
    (hseg : IsSegmentation seg) (sels : Option (Assoc Str (List Selection))) (name : Str) :
    (∃ l, lensParams seg buffers sels name .whole = .ok l) ↔
      ∃ b, buffers.get name = some b ∧ ∀ m l sel, sels = some m → m.get name = some l → sel ∈ l →
        CanShow seg b.content.content (min sel.anchor sel.cursor) (max sel.anchor sel.cursor) := by
  unfold lensParams
  cases hb : buffers.get name with
  | none =>
    constructor
    · rintro ⟨l, h⟩
      obtain ⟨b, hb', _⟩ := bind_inv h
      rw [Assoc.at_inv hb'] at hb; cases hb
    · rintro ⟨b, h, _⟩; cases h
  | some b =>
    have hst := forward_steady (ht name b hb)
    have hw := (reachable_ready (steady_any hst)).wf
    have hn := steady_newlines hst
    rw [Assoc.at_ok hb, except_bind_ok]
    have hall : (∀ m l sel, sels = some m → m.get name = some l → sel ∈ l →
        CanShow seg b.content.content (min sel.anchor sel.cursor) (max sel.anchor sel.cursor)) ↔
        ∀ sel ∈ (sels.bind fun ss => Assoc.get ss name).getD [],
          CanShow seg b.content.content (min sel.anchor sel.cursor) (max sel.anchor sel.cursor) := by
      cases sels with
      | none => simp
      | some m =>
        simp only [Option.bind_some, Option.some.injEq]
        cases hm : Assoc.get m name with
        | none =>
          simp only [Option.getD_none, List.not_mem_nil, false_implies, implies_true, iff_true]
          intro m' l sel e hl
          rw [← e, hm] at hl; cases hl
        | some ss =>
          simp only [Option.getD_some]
          constructor
          · exact fun h sel hs => h m ss sel rfl hm hs
          · intro h m' l sel e hl hs
            rw [← e, hm] at hl; cases hl
            exact h sel hs
    have hb' : (∃ b', some b = some b' ∧ ∀ m l sel, sels = some m → m.get name = some l → sel ∈ l →
        CanShow seg b'.content.content (min sel.anchor sel.cursor) (max sel.anchor sel.cursor)) ↔
        ∀ sel ∈ (sels.bind fun ss => Assoc.get ss name).getD [],
          CanShow seg b.content.content (min sel.anchor sel.cursor) (max sel.anchor sel.cursor) := by
      rw [← hall]
      exact ⟨fun ⟨_, e, h⟩ => by cases e; exact h, fun h => ⟨b, rfl, h⟩⟩
    rw [hb']
    generalize (sels.bind fun ss => Assoc.get ss name).getD [] = ss
    obtain ⟨x, hx⟩ := text_total hw
    constructor
    · rintro ⟨l, h⟩ sel hs
      obtain ⟨ys, hys, _⟩ := bind_inv h
      rw [← ends_iff hw hn hseg]
      obtain ⟨y, hy⟩ := mapM_inv hys sel hs
      exact ⟨y, hy⟩
    · intro h
      obtain ⟨ys, e⟩ := mapM_total (f := fun s => (do
          let (a, b) ← selectionEnds seg b.content s
          selectedRanges a b : R _)) (l := ss) (fun sel hs => (ends_iff hw hn hseg sel).2 (h sel hs))
      dsimp only at e ⊢
      rw [e]
      simp only [except_bind_ok, Buffer.lines, PieceTable.lines, hx, except_pure]
      exact ⟨_, rfl⟩

theorem asVec_whole {v : View} (hv : AllWhole v) :
    v.asVec = .ok (v.flatMap fun bg => ViewItem.header bg.1 .whole :: bg.2.map (ViewItem.lens bg.1)) := by
  have key : v.mapM (fun bg => (do
      let f ← LensGroup.focus bg.2
      return ViewItem.header bg.1 f :: bg.2.map (ViewItem.lens bg.1) : R _)) =
      .ok (v.map fun bg => ViewItem.header bg.1 .whole :: bg.2.map (ViewItem.lens bg.1)) := by
    induction v with
    | nil => rfl
    | cons bg v ih =>
      obtain ⟨hne, hall⟩ := hv bg (by simp)
      obtain ⟨f, fs, hg⟩ := List.exists_cons_of_ne_nil hne
      have hw : f = .whole := hall f (by simp [hg])
      obtain ⟨y, hy⟩ : ∃ y, (f :: fs).getLast? = some y := by
        rw [← Option.isSome_iff_exists]; simp
      have hf : LensGroup.focus bg.2 = .ok .whole := by
        unfold LensGroup.focus
        rw [hg, hy, hw]; rfl
      rw [List.mapM_cons, ih fun x hx => hv x (by simp [hx]), hf]
      rfl
  unfold View.asVec
  rw [key]
  simp [List.flatMap, except_bind_ok, except_pure]

theorem lineCount_total (hw : t.WF) : ∃ n, t.lineCount = .ok n := by
  unfold PieceTable.lineCount
  rw [maxOffset_eq hw]
  exact ⟨_, rfl⟩

theorem render_iff {buffers : Assoc Str Buffer} (ht : ∀ n b, buffers.get n = some b → ForwardHistory b.content)
    (hseg : IsSegmentation seg) (sels : Option (Assoc Str (List Selection))) {v : View} (hv : AllWhole v) :
    (∃ items, v.toNotificationParams seg buffers sels = .ok items) ↔
      ∀ n ∈ v.buffers, ∃ b, buffers.get n = some b ∧ ∀ m l sel, sels = some m → m.get n = some l → sel ∈ l →
        CanShow seg b.content.content (min sel.anchor sel.cursor) (max sel.anchor sel.cursor) := by
  let Q : ViewItem → Prop
    | .header n f => f = .whole → ∃ b, buffers.get n = some b
    | .lens n f => f = .whole → ∃ b, buffers.get n = some b ∧ ∀ m l sel, sels = some m → m.get n = some l → sel ∈ l →
        CanShow seg b.content.content (min sel.anchor sel.cursor) (max sel.anchor sel.cursor)
  have hfold : ∀ vec : List ViewItem, (∀ i ∈ vec, ∃ n, i = .header n .whole ∨ i = .lens n .whole) →
      ∀ acc, (∃ r, vec.foldlM (renderStep seg buffers sels) acc = .ok r) ↔ ∀ i ∈ vec, Q i := by
    intro vec
    induction vec with
    | nil => intro _ acc; exact ⟨fun _ x hx => (by cases hx), fun _ => ⟨acc, rfl⟩⟩
    | cons i vec ih =>
      intro hall acc
      have hi : (∃ r, renderStep seg buffers sels acc i = .ok r) ↔ Q i := by
        obtain ⟨n, rfl | rfl⟩ := hall i (by simp)
        · show _ ↔ (Focus.whole = .whole → ∃ b, buffers.get n = some b)
          simp only [renderStep, headerParams]
          constructor
          · rintro ⟨r, h⟩ _
            obtain ⟨x, hx, _⟩ := bind_inv h
            obtain ⟨b, hb, _⟩ := bind_inv hx
            exact ⟨b, Assoc.at_inv hb⟩
          · intro h
            obtain ⟨b, hb⟩ := h trivial
            obtain ⟨k, hk⟩ := lineCount_total (reachable_ready (forward_any (ht n b hb))).wf
            rw [Assoc.at_ok hb, except_bind_ok, hk]
            exact ⟨_, rfl⟩
        · show _ ↔ (Focus.whole = .whole → ∃ b, _)
          have := lens_iff ht hseg sels n
          simp only [renderStep, forall_const]
          rw [← this]
          constructor
          · rintro ⟨r, h⟩
            obtain ⟨x, hx, _⟩ := bind_inv h
            exact ⟨x, hx⟩
          · rintro ⟨x, hx⟩
            rw [hx]
            exact ⟨_, rfl⟩
      rw [List.foldlM_cons]
      constructor
      · rintro ⟨r, h⟩ x hx
        obtain ⟨a, ha, h⟩ := bind_inv h
        rcases List.mem_cons.1 hx with rfl | hx
        · exact hi.1 ⟨a, ha⟩
        · exact (ih (fun i h => hall i (by simp [h])) a).1 ⟨r, h⟩ x hx
      · intro h
        obtain ⟨a, ha⟩ := hi.2 (h i (by simp))
        rw [ha]
        exact (ih (fun i h => hall i (by simp [h])) a).2 fun x hx => h x (by simp [hx])
  have hvec := asVec_whole hv
  generalize hV : (v.flatMap fun bg => ViewItem.header bg.1 .whole :: bg.2.map (ViewItem.lens bg.1)) = vec at hvec
  have hmem : ∀ i, i ∈ vec ↔ ∃ n ∈ v.buffers, i = .header n .whole ∨ i = .lens n .whole := by
    intro i
    rw [← hV, List.mem_flatMap]
    constructor
    · rintro ⟨bg, hbg, hi⟩
      refine ⟨bg.1, List.mem_map_of_mem hbg, ?_⟩
      rcases List.mem_cons.1 hi with h | h
      · exact .inl h
      · obtain ⟨f, hf, rfl⟩ := List.mem_map.1 h
        rw [(hv bg hbg).2 f hf]; exact .inr rfl
    · rintro ⟨n, hn, hi⟩
      obtain ⟨bg, hbg, rfl⟩ := List.mem_map.1 hn
      refine ⟨bg, hbg, ?_⟩
      rcases hi with rfl | rfl
      · simp
      · obtain ⟨f, hf⟩ := List.exists_mem_of_ne_nil _ (hv bg hbg).1
        have e := (hv bg hbg).2 f hf
        rw [e] at hf
        exact List.mem_cons_of_mem _ (List.mem_map.2 ⟨_, hf, rfl⟩)
  have hr : (∃ items, v.toNotificationParams seg buffers sels = .ok items) ↔
      ∃ r, vec.foldlM (renderStep seg buffers sels) ([], none) = .ok r := by
    unfold View.toNotificationParams
    rw [hvec, except_bind_ok]
    constructor
    · rintro ⟨items, h⟩
      obtain ⟨r, hr, _⟩ := bind_inv h
      exact ⟨r, hr⟩
    · rintro ⟨r, hr⟩
      show ∃ items, (vec.foldlM (renderStep seg buffers sels) ([], none) >>= fun r => pure (r.1 ++ r.2.toList)) = .ok items
      rw [hr]
      exact ⟨_, rfl⟩
  rw [hr, hfold vec (fun i hi => by obtain ⟨n, _, h⟩ := (hmem i).1 hi; exact ⟨n, h⟩)]
  constructor
  · intro h n hn
    exact h _ ((hmem _).2 ⟨n, hn, .inr rfl⟩) rfl
  · intro h i hi
    obtain ⟨n, hn, rfl | rfl⟩ := (hmem i).1 hi
    · intro _
      obtain ⟨b, hb, _⟩ := h n hn
      exact ⟨b, hb⟩
    · exact fun _ => h n hn
end

/-- All the selections that client `c` has in its present view can be drawn, in the texts that the buffers of this view
have now. -/
def CanBeShown (seg : Segmentation) (w : World) (c : Nat) : Prop :=
  ∃ ctx, w.clients.map.get c = some ctx ∧ ∀ n ∈ ctx.view.buffers, ∃ b s, w.buffers.get n = some b ∧ Shows b.content s ∧
    ∀ m l sel, ctx.selections.get ctx.view.key = some m → m.get n = some l → sel ∈ l →
      CanShow seg s (min sel.anchor sel.cursor) (max sel.anchor sel.cursor)

/-- C88: whatever the requests so far and whatever the characters of the buffers, the editor can send their views to some
clients exactly when all the selections of each of them in its view can be drawn; else it crashes. -/
theorem C88_told {w : World} (h : CoreHistory (fun _ _ => True) w) {env : Env} (hseg : IsSegmentation env.seg) (ids : List Nat) :
    (∃ w', w.notifyViewUpdate env ids = .ok w') ↔ ∀ c ∈ ids, CanBeShown env.seg w c := by
  have one : ∀ c, (∃ p, w.viewParams env c = .ok p) ↔ CanBeShown env.seg w c := by
    intro c
    unfold World.viewParams CanBeShown
    constructor
    · rintro ⟨p, hp⟩
      obtain ⟨ctx, hctx, hp⟩ := bind_inv hp
      obtain ⟨its, hits, _⟩ := bind_inv hp
      have hctx := Assoc.at_inv hctx
      refine ⟨ctx, hctx, fun n hn => ?_⟩
      obtain ⟨b, hb, hs⟩ := (render_iff (World.texts_history h) hseg _ ((World.views_history allWhole h).clients c ctx hctx)).1
        ⟨its, hits⟩ n hn
      exact ⟨b, _, hb, shows_content (reachable_ready (forward_any (World.texts_history h n b hb))).wf, hs⟩
    · rintro ⟨ctx, hctx, hall⟩
      obtain ⟨its, hits⟩ := (render_iff (World.texts_history h) hseg (ctx.selections.get ctx.view.key)
        ((World.views_history allWhole h).clients c ctx hctx)).2 (by
          intro n hn
          obtain ⟨b, s, hb, hs, hsel⟩ := hall n hn
          refine ⟨b, hb, ?_⟩
          rw [← (shows_iff (reachable_ready (forward_any (World.texts_history h n b hb))).wf).1 hs] at hsel
          exact hsel)
      rw [Assoc.at_ok hctx, except_bind_ok, hits]
      exact ⟨_, rfl⟩
  unfold World.notifyViewUpdate
  constructor
  · rintro ⟨w', hw⟩ c hc
    obtain ⟨ps, hps, _⟩ := bind_inv hw
    obtain ⟨p, hp⟩ := mapM_inv hps c hc
    exact (one c).1 ⟨p, hp⟩
  · intro hall
    obtain ⟨ps, hps⟩ := mapM_total (f := w.viewParams env) (l := ids) fun c hc => (one c).2 (hall c hc)
    rw [hps]
    exact ⟨_, rfl⟩

/-! ## Where a selection may end -/

section
variable {s pre line suf : Bytes} {n : Nat}

/-- in a text that ends with a newline every line is followed by one -/
theorem ends_suf (he : EndsWithNewline s) (hl : LineAt s n pre line suf) : ∃ x, suf = NL :: x := by
  rcases hl.stops with h | h
  · exfalso
    have hx := hl.exist
    rw [h, List.append_nil] at hx
    have he : s.getLast? = some NL := he
    obtain ⟨y, hy⟩ : ∃ y, line.getLast? = some y := by rw [← Option.isSome_iff_exists]; simpa using hx
    rw [hl.split, h, List.append_nil, List.getLast?_append, hy] at he
    have he : y = NL := by simpa using he
    rw [he] at hy
    exact hl.noNewline (List.mem_of_getLast? hy)
  · cases suf with
    | nil => cases h
    | cons b x => simp at h; exact ⟨x, by rw [h]⟩

theorem line_after {x : Bytes} (hl : LineAt s n pre line (NL :: x)) (hx : x ≠ []) :
    ∃ line' suf', LineAt s (n + 1) (pre ++ line ++ [NL]) line' suf' := by
  obtain ⟨p', l', s', hl'⟩ := exists_line (s := x) (n := 1) (Nat.le_refl 1) (by
    obtain ⟨m, p, l, z, h, _⟩ := exists_lineAt (List.length_pos_iff.2 hx)
    have := lineAt_le h; have := h.pos; omega)
  have hp := hl'.pre_eq_nil.2 rfl
  subst hp
  refine ⟨l', s', ⟨?_, ?_, .inr (by simp), hl'.noNewline, hl'.stops, hl'.exist⟩⟩
  · rw [hl.split]
    have := hl'.split
    simp only [List.nil_append] at this
    rw [this]; simp
  · have h0 : line.count NL = 0 := List.count_eq_zero.2 hl.noNewline
    rw [List.count_append, List.count_append, h0, hl.number]
    simp

theorem no_line_after (hl : LineAt s n pre line [NL]) {pre' line' suf' : Bytes} : ¬ LineAt s (n + 1) pre' line' suf' := by
  intro hl'
  have he : EndsWithNewline s := by unfold EndsWithNewline; rw [hl.split]; simp
  obtain ⟨x, rfl⟩ := ends_suf he hl'
  have h1 : s.count NL = n := by
    have h0 : line.count NL = 0 := List.count_eq_zero.2 hl.noNewline
    rw [hl.split, List.count_append, List.count_append, h0, hl.number]
    simp
  have h2 : n + 1 ≤ s.count NL := by
    rw [hl'.split, List.count_append, List.count_append, List.count_cons_self]
    have := hl'.number
    omega
  omega

theorem lands_lt {seg : Segmentation} (hseg : IsSegmentation seg) (he : EndsWithNewline s) (hl : LineAt s n pre line suf)
    {w : Nat} (hw : 1 ≤ w) : ∃ o, LandsOn seg s n w o ∧ o < s.length := by
  refine ⟨_, ⟨pre, line, suf, hl, hw, rfl⟩, ?_⟩
  obtain ⟨x, rfl⟩ := ends_suf he hl
  have := hl.length
  have h2 : ((seg line).take (min w ((seg line).length + 1) - 1)).flatten.length ≤ line.length := by
    have e : (seg line).flatten = ((seg line).take (min w ((seg line).length + 1) - 1)).flatten ++
        ((seg line).drop (min w ((seg line).length + 1) - 1)).flatten := by
      rw [← List.flatten_append, List.take_append_drop]
    rw [hseg.flatten] at e
    have := congrArg List.length e
    simp only [List.length_append] at this
    omega
  simp only [List.length_cons] at this
  omega
end

/-- C88: in a text that ends with a newline, a selection can be drawn exactly when its last end is the last byte of the
text, or is in a line, after the first, of which it is not the newline, or comes, on its line, after fewer bytes than this
line has characters - or after as many, if the line is not the last one. -/
theorem C88_where {seg : Segmentation} (hseg : IsSegmentation seg) {s : Bytes} (he : EndsWithNewline s) {a b : Nat}
    (hab : a ≤ b) (hb : b < s.length) :
    CanShow seg s a b ↔ b + 1 = s.length ∨ ∃ n pre line suf, LineAt s n pre line suf ∧ pre.length ≤ b ∧
      b ≤ pre.length + line.length ∧
      ((n ≠ 1 ∧ b < pre.length + line.length) ∨ b - pre.length < (seg line).length ∨
       (b - pre.length = (seg line).length ∧ suf ≠ [NL])) := by
  have hne := ends_ne he
  obtain ⟨_, hcont, _⟩ := withText_facts hne
  have hst : SteadyHistory (PieceTable.withText s) := forward_steady (.withText hne trivial)
  have hw := (reachable_ready (steady_any hst)).wf
  have hn := steady_newlines hst
  have uniq : ∀ {o n c n' c' : Nat}, ReadAs seg s o n c → ReadAs seg s o n' c' → n = n' ∧ c = c' := by
    intro o n c n' c' h1 h2
    rw [← hcont] at h1 h2
    exact readAs_unique hw hn hseg h1 h2
  constructor
  · rintro (⟨h, _⟩ | ⟨ha, h | ⟨e, m, c, n, w, o, h1, h2, hr, ⟨m', c', p, hr', hcl, hd⟩, hlo, hlt⟩⟩)
    · exact absurd h hne
    · exact .inl h
    rcases Nat.lt_or_ge (b + 1) s.length with hlast | hlast
    rotate_left
    · exact .inl (by omega)
    have := h1 hb; subst this
    obtain ⟨rfl, rfl⟩ := uniq hr hr'
    obtain ⟨pre, line, suf, hl, hcc⟩ := hr
    obtain ⟨x, rfl⟩ := ends_suf he hl
    have hlen := hl.length
    simp only [List.length_cons] at hlen
    obtain ⟨pre', line', suf', hl', k1, k2, k3⟩ := hcl
    obtain ⟨rfl, rfl, rfl⟩ := hl.unique hl'
    -- not the end of the only line
    have stop : c = (seg line').length + 1 → e + 1 < s.length → (NL :: x : Bytes) ≠ [NL] := by
      intro ec _ hx
      have hx : x = [] := by simpa using hx
      subst hx
      have hp : p = pre'.length + line'.length := by
        rw [k3, ec, Nat.add_sub_cancel, List.take_of_length_le (Nat.le_refl _), hseg.flatten]
      have hget : s[p]? = some NL := by rw [hp, hl.split]; simp
      simp only [List.length_nil] at hlen
      cases hd with
      | rightEnd h =>
        obtain ⟨_, ec2⟩ := uniq h ⟨pre', line', [NL], hl, .inl ⟨by simp, by omega, rfl⟩⟩
        rcases hcc with ⟨_, h2, h3⟩ | ⟨h1, h2, h3⟩ | ⟨h1, before, g, after, k, h2, h3, h4, h5⟩
        · omega
        · omega
        · rw [h2] at ec
          simp at ec; omega
      | rightLine _ _ =>
        obtain ⟨_, _, _, hl2, _⟩ := hlo
        exact no_line_after hl hl2
      | right _ h1 h2 _ => rw [hget] at h1; exact h2 (Option.some.inj h1).symm
      | rightLast _ h1 h2 _ => rw [hget] at h1; exact h2 (Option.some.inj h1).symm
    refine .inr ⟨m, pre', line', NL :: x, hl, ?_⟩
    rcases hcc with ⟨_, h2, h3⟩ | ⟨h1, h2, h3⟩ | ⟨h1, before, g, after, k, h2, h3, h4, h5⟩
    · refine ⟨by omega, by omega, .inr ?_⟩
      rcases Nat.lt_or_ge (e - pre'.length) (seg line').length with h | h
      · exact .inl h
      · exact .inr ⟨by omega, stop (by omega) hlast⟩
    · have hp := hl.pre_eq_nil.2 h1
      subst hp
      refine ⟨by simp, by simp; omega, .inr ?_⟩
      simp only [List.length_nil, Nat.sub_zero]
      rcases Nat.lt_or_ge e (seg line').length with h | h
      · exact .inl h
      · exact .inr ⟨by omega, stop (by omega) hlast⟩
    · have := congrArg (fun l => l.flatten.length) h2
      simp only [hseg.flatten, List.flatten_append, List.flatten_cons, List.length_append] at this
      exact ⟨by omega, by omega, .inl ⟨h1, by omega⟩⟩
  · rintro (h | ⟨n, pre, line, suf, hl, hb1, hb2, hcond⟩)
    · exact .inr ⟨by omega, .inl h⟩
    refine .inr ⟨by omega, ?_⟩
    rcases Nat.lt_or_ge (b + 1) s.length with hlast | hlast
    rotate_left
    · exact .inl (by omega)
    right
    obtain ⟨x, rfl⟩ := ends_suf he hl
    have hlen := hl.length
    simp only [List.length_cons] at hlen
    have hread : ∃ c, ReadAs seg s b n c ∧ c ≤ (seg line).length + 1 ∧
        (c = (seg line).length + 1 → x = [] → False) := by
      rcases Nat.lt_or_ge b (pre.length + line.length) with h | h
      · by_cases h1 : n = 1
        · have hp := hl.pre_eq_nil.2 h1
          subst hp
          refine ⟨b + 1, ⟨[], line, NL :: x, hl, .inr (.inl ⟨h1, by simpa using h, rfl⟩)⟩, ?_, ?_⟩
          · simp at hcond; omega
          · intro hc hx
            subst hx
            simp at hcond; omega
        · have hk : b - pre.length < (seg line).flatten.length := by rw [hseg.flatten]; omega
          obtain ⟨before, g, after, j, e, hj, hk⟩ := in_cluster hk
          refine ⟨before.length + 1, ⟨pre, line, NL :: x, hl, .inr (.inr ⟨h1, before, g, after, j, e, hj, by omega, rfl⟩)⟩, ?_, ?_⟩
          · rw [e]; simp
          · rw [e]; simp
      · refine ⟨line.length + 1, ⟨pre, line, NL :: x, hl, .inl ⟨by simp, by omega, rfl⟩⟩, ?_, ?_⟩
        · omega
        · rintro _ rfl
          simp only [List.length_nil] at hlen
          omega
    obtain ⟨c, hr, hc, hcx⟩ := hread
    have hc1 := (readAs_lt hseg hr).2
    have hcl : ClusterAt seg s (pre.length + ((seg line).take (c - 1)).flatten.length) n c := ⟨pre, line, NL :: x, hl, hc1, hc, rfl⟩
    have hp : pre.length + ((seg line).take (c - 1)).flatten.length ≤ pre.length + line.length := by
      have e : (seg line).flatten = ((seg line).take (c - 1)).flatten ++ ((seg line).drop (c - 1)).flatten := by
        rw [← List.flatten_append, List.take_append_drop]
      rw [hseg.flatten] at e
      have := congrArg List.length e
      simp only [List.length_append] at this
      omega
    have fin : ∀ n' w pre' line' suf', LineAt s n' pre' line' suf' → 1 ≤ w →
        HeadedFrom seg s n c (pre.length + ((seg line).take (c - 1)).flatten.length) c .right n' w →
        ∃ e m c n w o, (b < s.length → e = b) ∧ (s.length ≤ b → e = 0) ∧
          ReadAs seg s e m c ∧ Headed seg s e c .right n w ∧ LandsOn seg s n w o ∧ o < s.length := by
      intro n' w pre' line' suf' hl' hw' hd
      obtain ⟨o, ho, hlt⟩ := lands_lt hseg he hl' hw'
      exact ⟨b, n, c, n', w, o, fun _ => rfl, by omega, hr, ⟨n, c, _, hr, hcl, hd⟩, ho, hlt⟩
    by_cases hend : ReadAs seg s (s.length - 1) n c
    · exact fin n c _ _ _ hl hc1 (.rightEnd hend)
    · generalize hpe : pre.length + ((seg line).take (c - 1)).flatten.length = p at *
      have hplt : p < s.length := by omega
      by_cases hnl : s[p]? = some NL
      · have hpl : p = pre.length + line.length := by
          rcases Nat.lt_or_ge p (pre.length + line.length) with h | h
          · exfalso
            apply hl.noNewline
            rw [hl.split, List.append_assoc, List.getElem?_append_right (by omega), List.getElem?_append_left (by omega)] at hnl
            exact List.mem_of_getElem? hnl
          · omega
        have hx : x ≠ [] := by
          intro hx
          refine hcx ?_ hx
          rcases Nat.lt_or_ge (c - 1) (seg line).length with h | h
          · have := flatten_take_lt (fun g hg => hseg.nonempty line g hg) h
            rw [hseg.flatten] at this
            omega
          · omega
        obtain ⟨line', suf', hl'⟩ := line_after hl hx
        exact fin (n + 1) 1 _ _ _ hl' (Nat.le_refl 1) (.rightLine hend hnl)
      · have hpl : p < pre.length + line.length := by
          rcases Nat.lt_or_ge p (pre.length + line.length) with h | h
          · exact h
          · exfalso
            apply hnl
            have : p = pre.length + line.length := by omega
            rw [this, hl.split]; simp
        obtain ⟨n', w, hr'⟩ := readAs_exists (seg := seg) (s := s) (o := p + 1) hseg (by omega)
        obtain ⟨pre', line', suf', hl'⟩ := readAs_line hr'
        refine fin n' w _ _ _ hl' (readAs_lt hseg hr').2 (.right hend (List.getElem?_eq_getElem hplt) ?_ hr')
        intro e
        exact hnl (by rw [List.getElem?_eq_getElem hplt, e])

/-- C88: the selection that a client has in a buffer it opens - none yet, so the first character - can be drawn in every
text that ends with a newline. -/
theorem C88_opened {seg : Segmentation} (hseg : IsSegmentation seg) {s : Bytes} (he : EndsWithNewline s) :
    CanShow seg s Selection.new.anchor Selection.new.cursor := by
  have hne := ends_ne he
  have hp := List.length_pos_iff.2 hne
  show CanShow seg s 0 0
  rw [C88_where hseg he (Nat.le_refl 0) hp]
  by_cases h1 : s.length = 1
  · exact .inl (by omega)
  right
  obtain ⟨n, pre, line, suf, hl, h2, h3, _⟩ := exists_lineAt hp
  refine ⟨n, pre, line, suf, hl, by omega, by omega, .inr ?_⟩
  rw [Nat.zero_sub]
  rcases Nat.eq_zero_or_pos (seg line).length with h | h
  · refine .inr ⟨h.symm, ?_⟩
    rintro rfl
    have hs := List.length_eq_zero_iff.1 h
    have hf := hseg.flatten line
    rw [hs] at hf
    have := hl.length
    simp only [List.flatten_nil] at hf
    rw [← hf] at this
    simp at this h2
    subst h2
    simp at this
    omega
  · exact .inl h

/-- C88: a selection that began in a text which has since become too short for its last end can still be drawn (as one that
ends at the start of the text), if the text ends with a newline; one that begins behind the text cannot. -/
theorem C88_behind {seg : Segmentation} (hseg : IsSegmentation seg) {s : Bytes} (he : EndsWithNewline s) {a b : Nat}
    (hb : s.length ≤ b) : CanShow seg s a b ↔ a < s.length := by
  have hne := ends_ne he
  have hp := List.length_pos_iff.2 hne
  constructor
  · rintro (⟨h, _⟩ | ⟨h, _⟩)
    · exact absurd h hne
    · exact h
  · intro ha
    refine .inr ⟨ha, .inr ?_⟩
    rcases C88_opened hseg he with ⟨h, _⟩ | ⟨_, h | ⟨e, m, c, n, w, o, h1, h2, h3⟩⟩
    · exact absurd h hne
    · -- a text of one newline
      have h : 0 + 1 = s.length := h
      obtain ⟨n, c, hr⟩ := readAs_exists (seg := seg) hseg hp
      obtain ⟨pre, line, suf, hl, hh⟩ := id hr
      have hlen := hl.length
      obtain ⟨x, rfl⟩ := ends_suf he hl
      simp only [List.length_cons] at hlen
      have hc : c = 1 := by
        rcases hh with ⟨_, h2, h3⟩ | ⟨h1, h2, h3⟩ | ⟨h1, before, g, after, k, h2, h3, h4, h5⟩
        · omega
        · omega
        · have := List.length_pos_iff.2 (hseg.nonempty line g (by rw [h2]; simp))
          have := congrArg (fun l => l.flatten.length) h2
          simp only [hseg.flatten, List.flatten_append, List.flatten_cons, List.length_append] at this
          omega
      obtain ⟨o, ho, hlt⟩ := lands_lt hseg he hl (readAs_lt hseg hr).2
      refine ⟨0, n, c, n, c, o, by omega, fun _ => rfl, hr, ⟨n, c, _, hr, ⟨pre, line, NL :: x, hl, by omega, by omega, rfl⟩, ?_⟩, ho, hlt⟩
      exact .rightEnd (by rw [← h]; exact hr)
    · have h1 : e = 0 := h1 hp
      subst h1
      exact ⟨0, m, c, n, w, o, by omega, fun _ => rfl, h3⟩

/-! ## Motions, as requests -/

/-- C88: after a motion that completes, nothing was said, or all the selections of the client in its view can be drawn. -/
theorem C88_moved {w w' : World} (h : CoreHistory (fun _ _ => True) w) {env : Env} (hseg : IsSegmentation env.seg) {c : Nat}
    {d : CursorTarget} {ext : Bool} (hm : w.moveCursor env c d ext = .ok w') : w'.out = w.out ∨ CanBeShown env.seg w' c := by
  obtain ⟨hb, _, _, _, _, x, x', m, m', hx, hx', hv, _, _, hk, _, hd⟩ := C34_motion hm
  rcases hd with ⟨_, h⟩ | ⟨_, items, hit, _⟩
  · exact .inl h
  right
  refine ⟨x', hx', fun n hn => ?_⟩
  rw [hb] at hit ⊢
  obtain ⟨b, hb, hs⟩ := (render_iff (World.texts_history h) hseg _ (v := x'.view) (by
    rw [hv]; exact (World.views_history allWhole h).clients c x hx)).1 ⟨items, hit⟩ n hn
  refine ⟨b, _, hb, shows_content (reachable_ready (forward_any (World.texts_history h n b hb))).wf, ?_⟩
  intro m1 l sel h1
  rw [hv, hk] at h1
  exact hs m1 l sel h1

/-- C88, violated: on a line after the first, "the end of the line" crashes the editor at once if the line has a character
of more than one byte and is not the last one - whatever else the client selects and whoever else is connected. -/
theorem C88_line_end_refuted {w : World} (h : CoreHistory (fun _ _ => True) w) {env : Env} (hseg : IsSegmentation env.seg)
    {c : Nat} {ctx : ClientContext} (hctx : w.clients.map.get c = some ctx) {name : Str} (hname : name ∈ ctx.view.buffers)
    {m : Assoc Str (List Selection)} (hm : ctx.selections.get ctx.view.key = some m) {l : List Selection}
    (hl : m.get name = some l) {sel : Selection} (hsel : sel ∈ l) {b : Buffer} (hb : w.buffers.get name = some b) {s : Bytes}
    (hs : Shows b.content s) (he : EndsWithNewline s) {n : Nat} {pre line suf : Bytes} (hline : LineAt s n pre line suf)
    (h1 : 1 < n) (hlast : suf ≠ [NL]) (hmb : (env.seg line).length < line.length) (hc1 : pre.length ≤ sel.cursor)
    (hc2 : sel.cursor < pre.length + line.length) {ext : Bool} (hext : ext = true → sel.anchor ≤ pre.length + line.length) :
    ∃ e, w.moveCursor env c .lineEnd ext = .error e := by
  cases hr : w.moveCursor env c .lineEnd ext with
  | error e => exact ⟨e, rfl⟩
  | ok w' =>
    exfalso
    obtain ⟨hbs, _, _, _, _, x, x', m1, m', hx, hx', hv, _, hk, hk', hmoved, hd⟩ := C34_motion hr
    rw [hctx] at hx; cases hx
    rw [hm] at hk; cases hk
    have hmv := hmoved name
    rw [hl] at hmv
    obtain ⟨buf, l', hbuf, hl', hmap⟩ := hmv
    rw [hb] at hbuf; cases hbuf
    obtain ⟨x0, hsuf⟩ := ends_suf he hline
    have hst := forward_steady (World.texts_history h name b hb)
    obtain ⟨sel', hmove, hcur, _⟩ := C87_line_end_refuted hst hs hseg hline h1 (by rw [hsuf]; simp) hmb hc1 hc2 ext
    have hanc : sel'.anchor ≤ sel'.cursor := by
      rw [C87_motion hst hs hseg (by have := hline.length; omega) (by have := hline.length; have := List.length_pos_iff.2 (fun e => by have := hline.pre_eq_nil.1 e; omega : pre ≠ []); omega)] at hmove
      obtain ⟨_, _, o, _, _, _, rfl⟩ := hmove
      simp only at hcur ⊢
      split
      · rw [hcur]; exact hext (by assumption)
      · exact Nat.le_refl _
    have hmem : ∀ (l l' : List Selection), l.mapM (Selection.move env.seg b.content .lineEnd ext) = .ok l' → sel ∈ l →
        sel' ∈ l' ∧ (l' = l → sel' = sel) := by
      intro l
      induction l with
      | nil => intro l' _ hs; cases hs
      | cons y l ih =>
        intro l' hmap hs
        rw [List.mapM_cons] at hmap
        obtain ⟨y', hy', hmap⟩ := bind_inv hmap
        obtain ⟨ys, hys, hmap⟩ := bind_inv hmap
        cases hmap
        rcases List.mem_cons.1 hs with rfl | hs
        · rw [hmove] at hy'; cases hy'
          exact ⟨by simp, fun e => (List.cons.inj e).1⟩
        · obtain ⟨i1, i2⟩ := ih ys hys hs
          exact ⟨by simp [i1], fun e => i2 (List.cons.inj e).2⟩
    obtain ⟨hin, hdiff⟩ := hmem l l' hmap hsel
    rcases hd with ⟨e, _⟩ | ⟨_, items, hit, _⟩
    · rw [e, hl] at hl'
      have := hdiff (Option.some.inj hl').symm
      rw [this] at hcur
      omega
    · rw [hbs] at hit
      obtain ⟨b2, hb2, hall⟩ := (render_iff (World.texts_history h) hseg _ (v := x'.view) (by
        rw [hv]; exact (World.views_history allWhole h).clients c _ hctx)).1 ⟨items, hit⟩ name (by rw [hv]; exact hname)
      rw [hb] at hb2; cases hb2
      have hcan := hall m' l' sel' rfl hl' hin
      rw [(shows_iff (reachable_ready (steady_any hst)).wf).1 hs, Nat.max_eq_right hanc, Nat.min_eq_left hanc, hcur,
        C88_where hseg he (by omega) (by have := hline.length; rw [hsuf] at this; simp at this; omega)] at hcan
      have hlen := hline.length
      rw [hsuf] at hlen hlast
      simp only [List.length_cons] at hlen
      rcases hcan with e | ⟨n2, pre2, line2, suf2, hl2, q1, q2, q3⟩
      · have : x0 = [] := List.length_eq_zero_iff.1 (by omega)
        exact hlast (by rw [this])
      · -- the line is the same
        have heq : n2 = n := (at_unique (s := s) (o := pre.length + line.length)
          ⟨pre2, line2, suf2, hl2, Nat.succ_pos (pre.length + line.length - pre2.length), by omega, by simp; omega⟩
          ⟨pre, line, suf, hline, Nat.succ_pos line.length, by omega, rfl⟩).1
        subst heq
        obtain ⟨rfl, rfl, _⟩ := hline.unique hl2
        rcases q3 with ⟨_, q3⟩ | q3 | ⟨q3, _⟩ <;> omega

/-! ## A session with `"a\nbé\nc\n"` -/

/-- the file `e` holds `a`, `bé` and `c`, where `é` is one cluster of two bytes -/
def envE : Env := { envA with
  seg := clusters
  fs := fun p => if p = [['e']] then some ⟨[97, 10, 98, 195, 169, 10, 99, 10], 1⟩ else none }

/-- client 1 opened the file and went down one line -/
def runE : R World := do
  let w ← World.start envE [] [] []
  [CoreOp.join 1 [], .edit 1 ['e'] false, .move 1 .down false].foldlM (fun w op => op.run envE w) w

def worldE : World := final runE

theorem worldE_history : CoreHistory (fun _ _ => True) worldE := by
  have h : runE = .ok worldE := final_ok (by decide +kernel)
  unfold runE at h
  obtain ⟨w0, h0, h⟩ := bind_inv h
  refine foldlM_ind (P := CoreHistory fun _ _ => True) h (.start h0) ?_
  intro op _ a a' ha hs
  exact .step ha trivial (fun _ => rfl) hs

theorem worldE_sees : sees (.ok worldE) 1 ['e'] = some (str!"e{*}", some [⟨2, 2, 1⟩]) := by decide +kernel

/-- the text, its lines, and the places where a selection may end -/
def textE : Bytes := [97, 10, 98, 195, 169, 10, 99, 10]
theorem textE_ends : EndsWithNewline textE := rfl
theorem textE_line : LineAt textE 2 [97, 10] [98, 195, 169] [10, 99, 10] :=
  ⟨rfl, by decide, .inr rfl, by decide, .inr rfl, by decide⟩

/-- on `é` yes (C88_where), on the newline behind it no -/
example : CanShow clusters textE 4 4 ∧ CanShow clusters textE 0 7 ∧ CanShow clusters textE 3 9 := by
  refine ⟨(C88_where clusters_ok textE_ends (Nat.le_refl _) (by decide)).2 (.inr ⟨2, _, _, _, textE_line, by decide, by decide, .inl (by decide)⟩),
    (C88_where clusters_ok textE_ends (by decide) (by decide)).2 (.inl rfl), (C88_behind clusters_ok textE_ends (by decide)).2 (by decide)⟩

/-- C88, violated in a session: client 1 opens the file, goes down one line, and "the end of the line" kills the editor. -/
theorem C88_session_refuted : CoreHistory (fun _ _ => True) worldE ∧
    ∃ e, worldE.moveCursor envE 1 .lineEnd false = .error e := by
  refine ⟨worldE_history, ?_⟩
  have h : (worldE.moveCursor envE 1 .lineEnd false).toOption = none := by decide +kernel
  cases hr : worldE.moveCursor envE 1 .lineEnd false with
  | error e => exact ⟨e, rfl⟩
  | ok w => rw [hr] at h; cases h

/-- the hypotheses of `C88_line_end_refuted` hold in it -/
example : ∃ e, worldE.moveCursor envE 1 .lineEnd true = .error e := by
  have hctx : ∃ ctx, worldE.clients.map.get 1 = some ctx ∧ ['e'] ∈ ctx.view.buffers ∧
      ∃ m, ctx.selections.get ctx.view.key = some m ∧ m.get ['e'] = some [⟨2, 2, 1⟩] := by
    have h : (worldE.clients.map.get 1).map (fun ctx => (ctx.view.buffers, (ctx.selections.get ctx.view.key).bind fun m => m.get ['e'])) =
      some ([['e']], some [⟨2, 2, 1⟩]) := by decide +kernel
    obtain ⟨ctx, hc, h⟩ := Option.map_eq_some_iff.1 h
    simp only [Prod.mk.injEq] at h
    obtain ⟨m, hm, h2⟩ := Option.bind_eq_some_iff.1 h.2
    exact ⟨ctx, hc, by rw [h.1]; simp, m, hm, h2⟩
  have hbuf : ∃ b, worldE.buffers.get ['e'] = some b ∧ b.content.content = textE := by
    have h : (worldE.buffers.get ['e']).map (fun b => b.content.content) = some textE := by decide +kernel
    exact Option.map_eq_some_iff.1 h
  obtain ⟨ctx, hc, hv, m, hm, hl⟩ := hctx
  obtain ⟨b, hb, ht⟩ := hbuf
  have hsh : Shows b.content textE :=
    (shows_iff (reachable_ready (forward_any (World.texts_history worldE_history _ b hb))).wf).2 ht
  exact C88_line_end_refuted worldE_history (env := envE) clusters_ok hc hv hm hl (List.mem_singleton.2 rfl) hb hsh textE_ends
    textE_line (by decide) (by decide) (by show (clusters [98, 195, 169]).length < 3; simp [clusters]) (by decide) (by decide) (fun _ => by decide)

/-- before, the client can be told what it sees -/
example : ∃ w', worldE.notifyViewUpdate envE [1] = .ok w' := by
  have h : (worldE.notifyViewUpdate envE [1]).toOption.isSome = true := by decide +kernel
  exact ⟨_, final_ok h⟩

end Ced.Props

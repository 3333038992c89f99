import Verif.Props.Showing

/-!
# What is drawn as selected, in texts of any characters (C24, C88)
-/

namespace Ced.Props
open Spec PieceTable

theorem ranges_cover {a b : Coords} {rs : List (Nat × (Option Nat × Option Nat))} (h : selectedRanges a b = .ok rs)
    (h1 : 1 ≤ a.l) (h2 : 1 ≤ a.c) (h3 : 1 ≤ b.l) (h4 : 1 ≤ b.c) (len i k : Nat) :
    Covers rs len i k ↔ CellDrawn a.l a.c b.l b.c len (i + 1) (k + 1) := by
  unfold selectedRanges at h
  by_cases e1 : a.l = b.l
  · rw [if_pos e1, subChecked_ok h2, subChecked_ok h4, subChecked_ok h1] at h
    cases h
    unfold Covers CellDrawn
    simp only [List.mem_singleton, exists_eq_left, decoRange]
    omega
  · rw [if_neg e1, subChecked_ok h3] at h
    simp only [except_bind_ok] at h
    by_cases e2 : a.l = b.l - 1 ∧ b.c = 1
    · rw [if_pos e2, subChecked_ok h2, subChecked_ok h1] at h
      cases h
      unfold Covers CellDrawn
      simp only [List.mem_singleton, exists_eq_left, decoRange]
      omega
    · rw [if_neg e2] at h
      have hm := mapM_ok (f := fun i => (do
        let r ← if i = a.l then do
            let x ← subChecked a.c 1
            pure (some x, none)
          else if i = b.l then do
            let y ← subChecked b.c 1
            pure (none, some y)
          else pure (none, none)
        let k ← subChecked i 1
        return (k, r) : R _)) (g := lineRange a b) (l := List.range' a.l (b.l + 1 - a.l)) (by
          intro i hi
          rw [List.mem_range'_1] at hi
          unfold lineRange
          rw [subChecked_ok h2, subChecked_ok h4, subChecked_ok (show 1 ≤ i by omega)]
          by_cases d1 : i = a.l
          · simp [d1]
          · by_cases d2 : i = b.l
            · simp [d2, Ne.symm e1]
            · simp [d1, d2])
      have h : _ = _ := hm.symm.trans h
      cases h
      unfold Covers CellDrawn
      simp only [List.mem_map, List.mem_range'_1]
      constructor
      · rintro ⟨r, ⟨j, hj, rfl⟩, e, hk1, hk2⟩
        unfold lineRange at e hk1 hk2
        simp only at e hk1 hk2
        by_cases d1 : j = a.l
        · rw [if_pos d1] at hk1 hk2
          simp only [decoRange] at hk1 hk2
          omega
        · rw [if_neg d1] at hk1 hk2
          by_cases d2 : j = b.l
          · rw [if_pos d2] at hk1 hk2
            simp only [decoRange] at hk1 hk2
            omega
          · rw [if_neg d2] at hk1 hk2
            simp only [decoRange] at hk1 hk2
            omega
      · rintro ⟨hx, hy⟩
        refine ⟨lineRange a b (i + 1), ⟨i + 1, by omega, rfl⟩, by simp [lineRange], ?_⟩
        unfold lineRange
        simp only
        by_cases d1 : i + 1 = a.l
        · rw [if_pos d1]; simp only [decoRange]; omega
        · rw [if_neg d1]
          by_cases d2 : i + 1 = b.l
          · rw [if_pos d2]; simp only [decoRange]; omega
          · rw [if_neg d2]; simp only [decoRange]; omega

theorem mapR_mem {α β : Type} {f : α → R β} {l : List α} {ys : List β} (h : l.mapM f = .ok ys) (y : β) :
    y ∈ ys ↔ ∃ x ∈ l, f x = .ok y := by
  induction l generalizing ys with
  | nil => cases h; simp
  | cons x l ih =>
    rw [List.mapM_cons] at h
    obtain ⟨z, hz, h⟩ := bind_inv h
    obtain ⟨zs, hzs, h⟩ := bind_inv h
    cases h
    rw [List.mem_cons, ih hzs]
    constructor
    · rintro (rfl | ⟨x', hx, e⟩)
      · exact ⟨x, List.mem_cons_self, hz⟩
      · exact ⟨x', List.mem_cons_of_mem _ hx, e⟩
    · rintro ⟨x', hx, e⟩
      rcases List.mem_cons.1 hx with rfl | hx
      · rw [hz] at e; cases e; exact .inl rfl
      · exact .inr ⟨x', hx, e⟩

section
variable {t : PieceTable} {seg : Segmentation}

/-- the coordinates given by a navigator -/
theorem pos_line {nv : Navigator} {q : Position} (hw : t.WF) (hn : t.NewlinesOk) (h : nv.pos seg t = .ok q) {pre line suf : Bytes}
    (hl : LineAt t.content nv.cursor.l pre line suf) :
    q.coords = ⟨nv.cursor.l, min nv.targetCol ((seg line).length + 1)⟩ := by
  unfold Navigator.pos at h
  simp only [PieceTable.lineBytes_at hw hn hl, except_bind_ok] at h
  obtain ⟨o, _, h⟩ := bind_inv h
  split at h
  · cases h
  · obtain ⟨g, _, h⟩ := bind_inv h
    cases h
    simp only [Nat.min_comm]

/-- the ends of the drawing of a selection -/
theorem ends_drawn (hw : t.WF) (hn : t.NewlinesOk) (hseg : IsSegmentation seg) (hne : t.content ≠ []) {sel : Selection} {a b : Coords}
    (h : selectionEnds seg t sel = .ok (a, b)) :
    ReadAs seg t.content (min sel.anchor sel.cursor) a.l a.c ∧ DrawnTo seg t.content (max sel.anchor sel.cursor) b.l b.c := by
  have hf : sel.first = min sel.anchor sel.cursor := by unfold Selection.first; split <;> omega
  have hla : sel.last = max sel.anchor sel.cursor := by unfold Selection.last; split <;> omega
  unfold selectionEnds at h
  rw [hf, hla, maxOffset_eq hw] at h
  have hab : min sel.anchor sel.cursor ≤ max sel.anchor sel.cursor := by omega
  generalize min sel.anchor sel.cursor = x at *
  generalize max sel.anchor sel.cursor = y at *
  have hpos := List.length_pos_iff.2 hne
  have hu : ∀ x : Coords, unwrapR (some x) = .ok x := fun _ => rfl
  rcases Nat.lt_or_ge x t.content.length with hx | hx
  rotate_left
  · rw [offsetToCoord_past hw (by omega) (by omega)] at h
    cases h
  obtain ⟨n1, c1, hr1⟩ := readAs_exists (seg := seg) hseg hx
  rw [offsetToCoord_read hw hn hseg hr1] at h
  simp only [except_bind_ok, hu] at h
  by_cases hy : y = t.content.length - 1
  · rw [if_pos hy] at h
    obtain ⟨n2, c2, hr2⟩ := readAs_exists (seg := seg) (s := t.content) (o := y) hseg (by omega)
    rw [offsetToCoord_read hw hn hseg hr2] at h
    simp only [except_bind_ok, hu, except_pure] at h
    cases h
    exact ⟨hr1, .inl ⟨by omega, c2, hr2, rfl⟩⟩
  rw [if_neg hy] at h
  have key : ∀ e m c, ReadAs seg t.content e m c → (y < t.content.length → e = y) → (t.content.length ≤ y → e = 0) →
      ∀ q, step seg t (some ⟨m, c⟩) = .ok q → DrawnTo seg t.content y q.coords.l q.coords.c := by
    intro e m c hr he1 he2 q hq
    refine .inr ⟨by omega, e, m, c, ?_⟩
    unfold step at hq
    obtain ⟨pre, line, suf, hl⟩ := readAs_line hr
    have hc1 := (readAs_lt hseg hr).2
    rw [navigate_cluster hw hn hseg hc1 hl] at hq
    simp only [except_bind_ok] at hq
    by_cases hcc : c ≤ (seg line).length + 1
    · rw [if_pos hcc] at hq
      simp only [unwrapR, except_bind_ok] at hq
      have hcl : ClusterAt seg t.content (pre.length + ((seg line).take (c - 1)).flatten.length) m c :=
        ⟨pre, line, suf, hl, hc1, hcc, rfl⟩
      obtain ⟨nv, hm, hq⟩ := bind_inv hq
      have k2 := (Navigator.move_any (tc := c) hw hn hseg hne hcl .right).2 nv hm
      obtain ⟨⟨pre', line', suf', hl', _⟩, _⟩ :=
        (Navigator.pos_any (n := nv.cursor.l) (c := nv.cursor.c) (w := nv.targetCol) hw hn hseg hne).2 q hq
      have hco := pos_line hw hn hq hl'
      rw [hco]
      exact ⟨nv.targetCol, pre', line', suf', he1, he2, hr, ⟨m, c, _, hr, hcl, k2⟩, hl', rfl⟩
    · rw [if_neg hcc] at hq; cases hq
  have fin : ∀ co m c, Navigator.navigate seg t co = Navigator.navigate seg t (some ⟨m, c⟩) →
      (do
        let nv ← Navigator.navigate seg t co
        let nv ← unwrapR nv
        let nv ← nv.next seg t
        let p ← nv.pos seg t
        return ((⟨n1, c1⟩ : Coords), p.coords) : R _) = .ok (a, b) →
      ∃ q, step seg t (some ⟨m, c⟩) = .ok q ∧ a = ⟨n1, c1⟩ ∧ b = q.coords := by
    intro co m c hco h
    rw [hco] at h
    obtain ⟨v1, g1, h⟩ := bind_inv h
    obtain ⟨v2, g2, h⟩ := bind_inv h
    obtain ⟨v3, g3, h⟩ := bind_inv h
    obtain ⟨q, g4, h⟩ := bind_inv h
    cases h
    refine ⟨q, ?_, rfl, rfl⟩
    unfold step
    rw [g1, except_bind_ok, g2, except_bind_ok, g3, except_bind_ok, g4]
  by_cases hlt : y < t.content.length
  · obtain ⟨m, c, hr⟩ := readAs_exists (seg := seg) hseg hlt
    rw [offsetToCoord_read hw hn hseg hr] at h
    obtain ⟨q, hq, rfl, rfl⟩ := fin (some ⟨m, c⟩) m c rfl h
    exact ⟨hr1, key y m c hr (fun _ => rfl) (by omega) q hq⟩
  · rw [offsetToCoord_past hw (by omega) (by omega)] at h
    obtain ⟨q, hq, rfl, rfl⟩ := fin none 1 1 (navigate_none hw hn hseg hne) h
    exact ⟨hr1, key 0 1 1 (read_start hw hn hseg hne) (by omega) (fun _ => rfl) q hq⟩

/-- where a drawing stops is determined -/
theorem drawnTo_unique (hw : t.WF) (hn : t.NewlinesOk) (hseg : IsSegmentation seg) (hne : t.content ≠ []) {b n c n' c' : Nat}
    (h : DrawnTo seg t.content b n c) (h' : DrawnTo seg t.content b n' c') : n = n' ∧ c = c' := by
  rcases h with ⟨h1, c0, hr, rfl⟩ | ⟨h1, e, m, c0, w, pre, line, suf, a1, a2, hr, ⟨m1, c1, p1, r1, cl1, hd⟩, hl, rfl⟩ <;>
    rcases h' with ⟨h1', c0', hr', rfl⟩ | ⟨h1', e', m', c0', w', pre', line', suf', a1', a2', hr', ⟨m2, c2, p2, r2, cl2, hd'⟩, hl', rfl⟩
  · obtain ⟨rfl, rfl⟩ := readAs_unique hw hn hseg hr hr'
    exact ⟨rfl, rfl⟩
  · exact absurd h1 h1'
  · exact absurd h1' h1
  · have : e' = e := by
      rcases Nat.lt_or_ge b t.content.length with h | h
      · rw [a1 h, a1' h]
      · rw [a2 h, a2' h]
    subst this
    obtain ⟨rfl, rfl⟩ := readAs_unique hw hn hseg hr hr'
    obtain ⟨rfl, rfl⟩ := readAs_unique hw hn hseg hr r1
    obtain ⟨rfl, rfl⟩ := readAs_unique hw hn hseg hr r2
    have hpe : p2 = p1 := by
      have := (coordToOffset_cluster hw hn hseg cl2).symm.trans (coordToOffset_cluster hw hn hseg cl1)
      simpa using this
    subst hpe
    obtain ⟨k1, _⟩ := Navigator.move_any (tc := c0) hw hn hseg hne cl1 .right
    obtain ⟨x1, g1⟩ := k1 _ _ hd
    obtain ⟨x2, g2⟩ := k1 _ _ hd'
    rw [g1] at g2
    have g2 := Except.ok.inj g2
    injection g2 with g3 g4
    injection g3 with g3 _
    subst g3 g4
    obtain ⟨_, rfl, _⟩ := hl.unique hl'
    exact ⟨rfl, rfl⟩

end

/-- C24, C88: in a text of any characters, a lens that is sent highlights exactly the cells from the line and column the
editor reads off the first end of a selection to where the drawing stops. -/
theorem C88_highlight {b : Buffer} (h : SteadyHistory b.content) {s : Bytes} (hs : Shows b.content s) (hne : s ≠ [])
    {seg : Segmentation} (hseg : IsSegmentation seg) {buffers : Assoc Str Buffer} {name : Str}
    (hb : buffers.get name = some b) {selections : Option (Assoc Str (List Selection))} {r : ViewParamsLens}
    (hr : lensParams seg buffers selections name .whole = .ok r) (i k : Nat) :
    Highlighted r i k ↔ ∃ line, r.lines[i]? = some line ∧ ∃ m sels, selections = some m ∧ m.get name = some sels ∧
      ∃ sel ∈ sels, ∃ n1 c1 n2 c2,
      ReadAs seg s (min sel.anchor sel.cursor) n1 c1 ∧ DrawnTo seg s (max sel.anchor sel.cursor) n2 c2 ∧
      CellDrawn n1 c1 n2 c2 line.text.length (i + 1) (k + 1) := by
  have hw := (reachable_ready (steady_any h)).wf
  have hn := steady_newlines h
  have hc := (shows_iff hw).1 hs
  subst hc
  unfold lensParams at hr
  rw [Assoc.at_ok hb] at hr
  simp only [except_bind_ok] at hr
  have hsl : ∀ P : Selection → Prop, (∃ m sels, selections = some m ∧ m.get name = some sels ∧ ∃ sel ∈ sels, P sel) ↔
      ∃ sel ∈ (selections.bind fun ss => Assoc.get ss name).getD [], P sel := by
    intro P
    cases selections with
    | none => simp
    | some m =>
      cases hm : Assoc.get m name with
      | none => simp [hm]
      | some l => simp [hm]
  simp only [hsl]
  generalize (selections.bind fun ss => Assoc.get ss name).getD [] = sels at hr
  obtain ⟨ys, hys, hr⟩ := bind_inv hr
  obtain ⟨ls, hls, hr⟩ := bind_inv hr
  cases hr
  have one : ∀ sel ∈ sels, ∀ rs, (do
        let (a, b) ← selectionEnds seg b.content sel
        selectedRanges a b) = .ok rs → ∀ len i k, Covers rs len i k ↔ ∃ n1 c1 n2 c2,
          ReadAs seg b.content.content (min sel.anchor sel.cursor) n1 c1 ∧
          DrawnTo seg b.content.content (max sel.anchor sel.cursor) n2 c2 ∧ CellDrawn n1 c1 n2 c2 len (i + 1) (k + 1) := by
    intro sel _ rs hrs len i k
    obtain ⟨⟨a, b'⟩, he, hrs⟩ := bind_inv hrs
    obtain ⟨hra, hdb⟩ := ends_drawn hw hn hseg hne he
    obtain ⟨g1, g2⟩ := readAs_pos hseg hra
    have g34 : 1 ≤ b'.l ∧ 1 ≤ b'.c := by
      rcases hdb with ⟨_, c0, hr2, e⟩ | ⟨_, e, m, c0, w, pre, line, suf, _, _, _, ⟨m1, c1, p1, r1, cl1, hd⟩, hl, e2⟩
      · exact ⟨(readAs_pos hseg hr2).1, by omega⟩
      · refine ⟨hl.pos, ?_⟩
        have : 1 ≤ w := by
          obtain ⟨rfl, rfl⟩ := readAs_unique hw hn hseg ‹ReadAs seg b.content.content e m c0› r1
          generalize b'.l = nn at hd
          cases hd with
          | rightEnd => exact (readAs_pos hseg r1).2
          | rightLine => exact Nat.le_refl 1
          | right _ _ _ hra => exact (readAs_pos hseg hra).2
          | rightLast => exact (readAs_pos hseg r1).2
        omega
    rw [ranges_cover hrs g1 g2 g34.1 g34.2]
    constructor
    · intro hcell
      exact ⟨_, _, _, _, hra, hdb, hcell⟩
    · rintro ⟨n1, c1, n2, c2, k1, k2, k3⟩
      obtain ⟨rfl, rfl⟩ := readAs_unique hw hn hseg hra k1
      obtain ⟨rfl, rfl⟩ := drawnTo_unique hw hn hseg hne hdb k2
      exact k3
  have hmem : ∀ q, q ∈ ys.flatten ↔ ∃ sel ∈ sels, ∃ rs, (do
        let (a, b) ← selectionEnds seg b.content sel
        selectedRanges a b) = .ok rs ∧ q ∈ rs := by
    intro q
    rw [List.mem_flatten]
    constructor
    · rintro ⟨rs, hrs, hq⟩
      obtain ⟨sel, hsm, he⟩ := (mapR_mem hys rs).1 hrs
      exact ⟨sel, hsm, rs, he, hq⟩
    · rintro ⟨sel, hsm, rs, he, hq⟩
      exact ⟨rs, (mapR_mem hys rs).2 ⟨sel, hsm, he⟩, hq⟩
  unfold Highlighted
  simp only [List.getElem?_mapIdx]
  constructor
  · rintro ⟨line, hline, q, hq, hk⟩
    refine ⟨line, hline, ?_⟩
    rw [Option.map_eq_some_iff] at hline
    obtain ⟨l, hl, rfl⟩ := hline
    simp only [List.mem_map, List.mem_filter] at hq
    obtain ⟨q', ⟨hq, hqi⟩, rfl⟩ := hq
    obtain ⟨sel, hsm, rs, he, hq⟩ := (hmem q').1 hq
    refine ⟨sel, hsm, ?_⟩
    exact (one sel hsm rs he _ i k).1 ⟨q', hq, by simpa using hqi, hk⟩
  · rintro ⟨line, hline, sel, hsm, hcell⟩
    refine ⟨line, hline, ?_⟩
    rw [Option.map_eq_some_iff] at hline
    obtain ⟨l, hl, rfl⟩ := hline
    obtain ⟨rs, he⟩ := mapM_inv hys sel hsm
    obtain ⟨q', hq', hqi, hk⟩ := (one sel hsm rs he _ i k).2 hcell
    refine ⟨_, List.mem_map.2 ⟨q', List.mem_filter.2 ⟨(hmem q').2 ⟨sel, hsm, rs, he, hq'⟩, by simpa using hqi⟩, rfl⟩, hk⟩

/-- every lens that is sent is the rendering of the buffer of its item -/
theorem sent_lens {seg : Segmentation} {buffers : Assoc Str Buffer} {sels : Option (Assoc Str (List Selection))} {v : View}
    (hv : AllWhole v) {items : List ViewParamsItem} (h : v.toNotificationParams seg buffers sels = .ok items) :
    ∀ item ∈ items, ∀ l ∈ item.lenses, lensParams seg buffers sels item.buffer .whole = .ok l := by
  let Q : ViewParamsItem → Prop := fun item => ∀ l ∈ item.lenses, lensParams seg buffers sels item.buffer .whole = .ok l
  unfold View.toNotificationParams at h
  rw [asVec_whole hv, except_bind_ok] at h
  obtain ⟨r, hr, h⟩ := bind_inv h
  have hr : (v.flatMap fun bg => ViewItem.header bg.1 .whole :: bg.2.map (ViewItem.lens bg.1)).foldlM
      (renderStep seg buffers sels) ([], none) = .ok r := hr
  have lenses : ∀ (name : Str) (fs : List Focus), (∀ f ∈ fs, f = .whole) → ∀ (acc : List ViewParamsItem) (c : ViewParamsItem)
      (r : List ViewParamsItem × Option ViewParamsItem), c.buffer = name → Q c →
      (fs.map (ViewItem.lens name)).foldlM (renderStep seg buffers sels) (acc, some c) = .ok r →
      ∃ c', r = (acc, some c') ∧ Q c' := by
    intro name fs
    induction fs with
    | nil => intro _ acc c r _ hq hr; cases hr; exact ⟨c, rfl, hq⟩
    | cons f fs ih =>
      intro hall acc c r hn hq hr
      rw [List.map_cons, List.foldlM_cons] at hr
      obtain ⟨x, hx, hr⟩ := bind_inv hr
      obtain ⟨l, hl, hx⟩ := bind_inv hx
      cases hx
      refine ih (fun f hf => hall f (by simp [hf])) _ _ _ (by exact hn) ?_ hr
      intro l' hl'
      rcases List.mem_append.1 hl' with h | h
      · exact hq l' h
      · rw [List.mem_singleton] at h
        subst h
        rw [hall f (by simp)] at hl
        show lensParams seg buffers sels c.buffer .whole = .ok l'
        rw [hn]; exact hl
  have key : ∀ (v : View), AllWhole v → ∀ (acc : List ViewParamsItem) (cur : Option ViewParamsItem)
      (r : List ViewParamsItem × Option ViewParamsItem), (∀ i ∈ acc ++ cur.toList, Q i) →
      (v.flatMap fun bg => ViewItem.header bg.1 .whole :: bg.2.map (ViewItem.lens bg.1)).foldlM
        (renderStep seg buffers sels) (acc, cur) = .ok r → ∀ i ∈ r.1 ++ r.2.toList, Q i := by
    intro v
    induction v with
    | nil => intro _ acc cur r hq hr; cases hr; exact hq
    | cons bg v ih =>
      intro hall acc cur r hq hr
      rw [List.flatMap_cons, List.cons_append, List.foldlM_cons] at hr
      obtain ⟨x, hx, hr⟩ := bind_inv hr
      obtain ⟨hd, hh, hx⟩ := bind_inv hx
      cases hx
      rw [List.foldlM_append] at hr
      obtain ⟨y, hy, hr⟩ := bind_inv hr
      obtain ⟨h1, h2, _⟩ := header_shows hh
      obtain ⟨c', rfl, hc'⟩ := lenses bg.1 bg.2 (hall bg (by simp)).2 _ _ _ h1 (by intro l hl; rw [h2] at hl; cases hl) hy
      refine ih (fun x hx => hall x (by simp [hx])) _ _ _ ?_ hr
      intro i hi
      rcases List.mem_append.1 hi with h | h
      · exact hq i h
      · simp only [Option.toList_some, List.mem_singleton] at h
        subst h; exact hc'
  have := key v hv [] none r (by simp) hr
  cases h
  exact this

/-- C24, C88: what a client is sent, at any time and for texts of any characters: of each buffer of its view, exactly the cells
of its own selections in its present view are highlighted. -/
theorem C88_client {w : World} (h : CoreHistory (fun _ _ => True) w) {env : Env} (hseg : IsSegmentation env.seg) {c d : Nat}
    {items : List ViewParamsItem} (hp : w.viewParams env c = .ok (d, items)) {ctx : ClientContext}
    (hctx : w.clients.map.get c = some ctx) {item : ViewParamsItem} (hitem : item ∈ items) {b : Buffer}
    (hb : w.buffers.get item.buffer = some b) {s : Bytes} (hs : Shows b.content s) (hne : s ≠ []) {l : ViewParamsLens}
    (hl : l ∈ item.lenses) (i k : Nat) :
    Highlighted l i k ↔ ∃ line, l.lines[i]? = some line ∧ ∃ m sels,
      ctx.selections.get ctx.view.key = some m ∧ m.get item.buffer = some sels ∧ ∃ sel ∈ sels, ∃ n1 c1 n2 c2,
      ReadAs env.seg s (min sel.anchor sel.cursor) n1 c1 ∧ DrawnTo env.seg s (max sel.anchor sel.cursor) n2 c2 ∧
      CellDrawn n1 c1 n2 c2 line.text.length (i + 1) (k + 1) := by
  obtain ⟨_, ctx', hc', hits⟩ := World.viewParams_inv hp
  rw [hctx] at hc'; cases hc'
  exact C88_highlight (forward_steady (World.texts_history h _ _ hb)) hs hne hseg hb
    (sent_lens ((World.views_history allWhole h).clients c ctx hctx) hits item hitem l hl) i k

/-- C24: what a client is sent of a buffer with an ASCII text that ends with a newline and has no carriage return: a cell is
highlighted exactly if it is the position of an offset in one of the client's own selections of its present view. -/
theorem C24_client {w : World} (h : CoreHistory (fun _ _ => True) w) {env : Env} (hseg : IsSegmentation env.seg) {c d : Nat}
    {items : List ViewParamsItem} (hp : w.viewParams env c = .ok (d, items)) {ctx : ClientContext}
    (hctx : w.clients.map.get c = some ctx) {item : ViewParamsItem} (hitem : item ∈ items) {b : Buffer}
    (hb : w.buffers.get item.buffer = some b) {s : Bytes} (hs : Shows b.content s) (ha : Ascii s) (hcr : 13 ∉ s)
    (he : EndsWithNewline s) (hin : ∀ m sels sel, ctx.selections.get ctx.view.key = some m → m.get item.buffer = some sels →
      sel ∈ sels → Inside s sel) {l : ViewParamsLens} (hl : l ∈ item.lenses) (i k : Nat) :
    Highlighted l i k ↔ ∃ m sels, ctx.selections.get ctx.view.key = some m ∧ m.get item.buffer = some sels ∧
      ∃ sel ∈ sels, ∃ o, min sel.anchor sel.cursor ≤ o ∧ o ≤ max sel.anchor sel.cursor ∧ At s o (i + 1) (k + 1) := by
  obtain ⟨_, ctx', hc', hits⟩ := World.viewParams_inv hp
  rw [hctx] at hc'; cases hc'
  have hst := forward_steady (World.texts_history h _ _ hb)
  have hlens := sent_lens ((World.views_history allWhole h).clients c ctx hctx) hits item hitem l hl
  have hnone : ∀ (e : (ctx.selections.get ctx.view.key).bind (fun m => m.get item.buffer) = none), ¬ Highlighted l i k := by
    intro e hh
    obtain ⟨_, _, m, sels, e1, e2, _⟩ := (C88_highlight hst hs (ends_ne he) hseg hb hlens i k).1 hh
    rw [e1, Option.bind_some, e2] at e
    cases e
  cases hm : ctx.selections.get ctx.view.key with
  | none =>
    rw [hm] at hnone
    exact ⟨fun hh => absurd hh (hnone rfl), by rintro ⟨_, _, e, _⟩; cases e⟩
  | some m =>
    rw [hm] at hnone hlens hin
    cases hsl : m.get item.buffer with
    | none => exact ⟨fun hh => absurd hh (hnone (by simp [hsl])), by rintro ⟨_, _, e, e2, _⟩; cases e; rw [hsl] at e2; cases e2⟩
    | some sels =>
      obtain ⟨r, hr, _, _, hcells⟩ := C24_highlight hst hs ha hcr he hseg hb hsl (fun sel hsel => hin m sels sel rfl hsl hsel)
      rw [hlens] at hr
      cases hr
      rw [hcells]
      constructor
      · rintro ⟨sel, h1, h2⟩; exact ⟨m, sels, rfl, hsl, sel, h1, h2⟩
      · rintro ⟨_, _, e, e2, h2⟩; cases e; rw [hsl] at e2; cases e2; exact h2

section
variable {seg : Segmentation} {s pre line suf : Bytes} {n : Nat} {before after : List Bytes} {g : Bytes}

/-- the column of a character of a later line is not the one of the end of the text, if something follows -/
theorem not_last (hseg : IsSegmentation seg) (hl : LineAt s n pre line suf) (h1 : 1 < n) (hg : seg line = before ++ g :: after)
    (hmore : after.flatten ++ suf ≠ []) : ¬ ReadAs seg s (s.length - 1) n (before.length + 1) := by
  have hlen := hl.length
  have hb := congrArg List.length (cluster_bytes hseg hg)
  simp only [List.length_append] at hb
  have hm := List.length_pos_iff.2 hmore
  simp only [List.length_append] at hm
  have hgp := List.length_pos_iff.2 (hseg.nonempty line g (by rw [hg]; simp))
  rintro ⟨pre', line', suf', hl', hh⟩
  obtain ⟨rfl, rfl, rfl⟩ := hl.unique hl'
  rcases hh with ⟨e1, e2, e3⟩ | ⟨e1, _⟩ | ⟨_, before', g', after', k', e1, e2, e3, e4⟩
  · have := length_le_flatten (gs := before) fun x hx => hseg.nonempty _ x (by rw [hg]; simp [hx])
    omega
  · omega
  · rw [hg] at e1
    obtain ⟨rfl, e5⟩ := List.append_inj e1 (by omega)
    obtain ⟨rfl, rfl⟩ := List.cons.inj e5
    omega

/-- the drawing of a cursor on a character of more than one byte, in a line after the first, stops where it starts -/
theorem drawn_stuck (hseg : IsSegmentation seg) (hl : LineAt s n pre line suf) (h1 : 1 < n)
    (hg : seg line = before ++ g :: after) (h2 : 2 ≤ g.length) (hmore : after.flatten ++ suf ≠ []) {k : Nat} (hk : k < g.length) :
    ReadAs seg s (pre.length + before.flatten.length + k) n (before.length + 1) ∧
    DrawnTo seg s (pre.length + before.flatten.length + k) n (before.length + 1) := by
  have hlen := hl.length
  have hb := congrArg List.length (cluster_bytes hseg hg)
  simp only [List.length_append] at hb
  have hm := List.length_pos_iff.2 hmore
  simp only [List.length_append] at hm
  have read : ∀ j, j < g.length → ReadAs seg s (pre.length + before.flatten.length + j) n (before.length + 1) := fun j hj =>
    ⟨pre, line, suf, hl, .inr (.inr ⟨by omega, before, g, after, j, hg, hj, rfl, rfl⟩)⟩
  obtain ⟨b, hb1, hb2⟩ := cluster_get hseg hl hg
  refine ⟨read k hk, .inr ⟨by omega, _, n, before.length + 1, before.length + 1, pre, line, suf, fun _ => rfl, by omega,
    read k hk, ⟨n, before.length + 1, _, read k hk, cluster_at hl hg, ?_⟩, hl, ?_⟩⟩
  · exact .right (not_last hseg hl h1 hg hmore) hb1 hb2 (read 1 (by omega))
  · rw [hg]; simp

/-- the drawing of a cursor on a character of one byte, in a line after the first, stops one column on -/
theorem drawn_byte (hseg : IsSegmentation seg) (hl : LineAt s n pre line suf) (h1 : 1 < n)
    (hg : seg line = before ++ g :: after) (h2 : g.length = 1) (hafter : after ≠ []) :
    ReadAs seg s (pre.length + before.flatten.length) n (before.length + 1) ∧
    DrawnTo seg s (pre.length + before.flatten.length) n (before.length + 2) := by
  have hlen := hl.length
  have hb := congrArg List.length (cluster_bytes hseg hg)
  simp only [List.length_append] at hb
  obtain ⟨g', after', rfl⟩ := List.exists_cons_of_ne_nil hafter
  have hg' : 0 < g'.length := List.length_pos_iff.2 (hseg.nonempty line g' (by rw [hg]; simp))
  simp only [List.flatten_cons, List.length_append] at hb
  have read : ReadAs seg s (pre.length + before.flatten.length) n (before.length + 1) :=
    ⟨pre, line, suf, hl, .inr (.inr ⟨by omega, before, g, g' :: after', 0, hg, by omega, rfl, rfl⟩)⟩
  have read' : ReadAs seg s (pre.length + before.flatten.length + 1) n (before.length + 2) :=
    ⟨pre, line, suf, hl, .inr (.inr ⟨by omega, before ++ [g], g', after', 0, by rw [hg]; simp, hg', by simp [h2]; omega,
      by simp⟩)⟩
  obtain ⟨b, hb1, hb2⟩ := cluster_get hseg hl hg
  have hmore : (g' :: after').flatten ++ suf ≠ [] := by
    intro e
    have := congrArg List.length e
    simp only [List.flatten_cons, List.length_append, List.length_nil] at this
    omega
  refine ⟨read, .inr ⟨by omega, _, n, before.length + 1, before.length + 2, pre, line, suf, fun _ => rfl, by omega,
    read, ⟨n, before.length + 1, _, read, cluster_at hl hg, ?_⟩, hl, ?_⟩⟩
  · exact .right (not_last hseg hl h1 hg hmore) hb1 hb2 read'
  · rw [hg]; simp

end

section
variable {w : World} (h : CoreHistory (fun _ _ => True) w) {env : Env} (hseg : IsSegmentation env.seg) {c d : Nat}
    {items : List ViewParamsItem} (hp : w.viewParams env c = .ok (d, items)) {ctx : ClientContext}
    (hctx : w.clients.map.get c = some ctx) {item : ViewParamsItem} (hitem : item ∈ items) {b : Buffer}
    (hb : w.buffers.get item.buffer = some b) {s : Bytes} (hs : Shows b.content s) {n : Nat} {pre line suf : Bytes}
    (hline : LineAt s n pre line suf) (h1 : 1 < n) {before after : List Bytes} {g : Bytes}
    (hg : env.seg line = before ++ g :: after) {m : Assoc Str (List Selection)} (hm : ctx.selections.get ctx.view.key = some m)
    {sel : Selection} (hsel : m.get item.buffer = some [sel]) (hone : sel.anchor = sel.cursor)
include h hseg hp hctx hitem hb hs hline h1 hg hm hsel hone

/-- C88, violated: on a line after the first, the cursor of a client on a character of more than one byte is not drawn at all
(unless that character ends the text). -/
theorem C88_unseen_refuted (h2 : 2 ≤ g.length) (hmore : after.flatten ++ suf ≠ []) {kk : Nat} (hk : kk < g.length)
    (hcur : sel.cursor = pre.length + before.flatten.length + kk) {l : ViewParamsLens} (hl : l ∈ item.lenses) (i k : Nat) :
    ¬ Highlighted l i k := by
  have hst := forward_steady (World.texts_history h _ _ hb)
  have hw := (reachable_ready (steady_any hst)).wf
  have hn := steady_newlines hst
  have hne : s ≠ [] := hline.ne_nil
  rw [C88_client h hseg hp hctx hitem hb hs hne hl]
  rintro ⟨_, _, m', sels, e1, e2, sel', e3, n1, c1, n2, c2, r1, r2, r3⟩
  rw [hm] at e1; cases e1
  rw [hsel] at e2; cases e2
  rw [List.mem_singleton] at e3
  subst e3
  have hc := (shows_iff hw).1 hs
  subst hc
  obtain ⟨k1, k2⟩ := drawn_stuck hseg hline h1 hg h2 hmore hk
  rw [hone, Nat.min_self, hcur] at r1
  rw [hone, Nat.max_self, hcur] at r2
  obtain ⟨rfl, rfl⟩ := readAs_unique hw hn hseg r1 k1
  obtain ⟨rfl, rfl⟩ := drawnTo_unique hw hn hseg hne r2 k2
  unfold CellDrawn at r3
  omega

/-- C88, violated: on a line after the first, the cursor of a client on a character of one byte is drawn on the *byte* of the
line that has the number of the *character*: on another character, to the left of the cursor, if one before it has more than
one byte. -/
theorem C88_misplaced_refuted (h2 : g.length = 1) (hafter : after ≠ [])
    (hcur : sel.cursor = pre.length + before.flatten.length) {l : ViewParamsLens} (hl : l ∈ item.lenses) (i k : Nat) :
    Highlighted l i k ↔ i < l.lines.length ∧ i + 1 = n ∧ k = before.length := by
  have hst := forward_steady (World.texts_history h _ _ hb)
  have hw := (reachable_ready (steady_any hst)).wf
  have hn := steady_newlines hst
  have hne : s ≠ [] := hline.ne_nil
  rw [C88_client h hseg hp hctx hitem hb hs hne hl]
  have hc := (shows_iff hw).1 hs
  subst hc
  obtain ⟨k1, k2⟩ := drawn_byte hseg hline h1 hg h2 hafter
  constructor
  · rintro ⟨_, hi, m', sels, e1, e2, sel', e3, n1, c1, n2, c2, r1, r2, r3⟩
    rw [hm] at e1; cases e1
    rw [hsel] at e2; cases e2
    rw [List.mem_singleton] at e3
    subst e3
    rw [hone, Nat.min_self, hcur] at r1
    rw [hone, Nat.max_self, hcur] at r2
    obtain ⟨rfl, rfl⟩ := readAs_unique hw hn hseg r1 k1
    obtain ⟨rfl, rfl⟩ := drawnTo_unique hw hn hseg hne r2 k2
    unfold CellDrawn at r3
    have := (List.getElem?_eq_some_iff.1 hi).1
    omega
  · rintro ⟨hi, rfl, rfl⟩
    refine ⟨_, List.getElem?_eq_getElem hi, m, [sel], hm, hsel, sel, by simp, i + 1, before.length + 1, i + 1, before.length + 2,
      by rw [hone, Nat.min_self, hcur]; exact k1, by rw [hone, Nat.max_self, hcur]; exact k2, ?_⟩
    unfold CellDrawn
    omega

end

/-! ## In sessions -/

/-- in the session of `Props/Showing`, the cursor on `b` of `bé` is drawn on the first byte of the second line -/
def drawnCells (r : R (Nat × List ViewParamsItem)) : Option (List (List (List (Bytes × List (Nat × Nat))))) :=
  r.toOption.map fun p => p.2.map fun i => i.lenses.map fun l => l.lines.map fun x => (x.text, x.selected)

instance : DecidableEq (List (Bytes × List (Nat × Nat))) := inferInstance
instance : DecidableEq (List (List (List (Bytes × List (Nat × Nat))))) := inferInstance

/-- C88_client and C88_misplaced_refuted apply -/
example : drawnCells (worldE.viewParams envE 1) = some [[[([97, 32], []), ([98, 195, 169, 32], [(0, 1)]), ([99, 32], [])]]] := by
  decide +kernel

/-- C24_client applies: in the session of `Props/Render`, the first cell of each buffer is the client's cursor -/
example : drawnCells (shownWorld.viewParams envA 1) = some [[[([32], [(0, 1)])]], [[([97, 32], [(0, 1)]), ([98, 32], [])]]] := by
  decide +kernel

/-- client 1 moved on to `é`: C88_unseen_refuted applies, the range that is drawn is empty -/
def runE' : R World := do worldE.moveCursor envE 1 .right false
def worldE' : World := final runE'

theorem worldE'_history : CoreHistory (fun _ _ => True) worldE' := by
  have h : runE' = .ok worldE' := final_ok (by decide +kernel)
  exact .step worldE_history (op := .move 1 .right false) trivial (fun _ => rfl) h

example : sees (.ok worldE') 1 ['e'] = some (str!"e{*}", some [⟨3, 3, 2⟩]) := by decide +kernel
example : drawnCells (worldE'.viewParams envE 1) = some [[[([97, 32], []), ([98, 195, 169, 32], [(1, 1)]), ([99, 32], [])]]] := by
  decide +kernel

end Ced.Props

import Verif.Spec.MotionAny
import Verif.Proofs.Motion

/-! # Motions in texts of any characters: the model's functions -/

namespace Ced
open Spec

theorem clusterStarts_filter_in {gs : List Bytes} {before after : List Bytes} {g : Bytes} {k : Nat}
    (hne : ∀ g ∈ gs, g ≠ []) (h : gs = before ++ g :: after) (hk : k < g.length) (off : Nat) :
    ((clusterStarts off gs).filter (· < off + before.flatten.length + k + 1)).length = before.length + 1 := by
  subst h
  induction before generalizing off with
  | nil =>
    simp only [List.nil_append, clusterStarts, List.flatten_nil, List.length_nil, Nat.add_zero]
    rw [List.filter_cons_of_pos (by simp; omega)]
    have : (clusterStarts (off + g.length) after).filter (· < off + k + 1) = [] := by
      rw [List.filter_eq_nil_iff]
      intro a ha
      obtain ⟨j, hj⟩ := List.getElem?_of_mem ha
      have hj' : j < after.length := by
        rcases Nat.lt_or_ge j after.length with h | h
        · exact h
        · rw [List.getElem?_eq_none (by rw [clusterStarts_length]; exact h)] at hj; cases hj
      rw [clusterStarts_get _ _ _ hj'] at hj
      simp at hj
      simp; omega
    rw [this]; rfl
  | cons x before ih =>
    have := ih (off + x.length) (fun g h => hne g (List.mem_cons_of_mem _ h))
    simp only [List.cons_append, clusterStarts, List.flatten_cons, List.length_append, List.length_cons]
    rw [List.filter_cons_of_pos (by simp; omega)]
    rw [List.length_cons]
    congr 1
    rw [← this]
    congr 2
    funext a
    congr 1
    apply propext
    omega

/-- a byte of the clusters is in one of them -/
theorem in_cluster {gs : List Bytes} {k : Nat} (h : k < gs.flatten.length) :
    ∃ before g after j, gs = before ++ g :: after ∧ j < g.length ∧ k = before.flatten.length + j := by
  induction gs generalizing k with
  | nil => simp at h
  | cons x gs ih =>
    by_cases hx : k < x.length
    · exact ⟨[], x, gs, k, rfl, hx, by simp⟩
    · simp only [List.flatten_cons, List.length_append] at h
      obtain ⟨before, g, after, j, e, hj, hk⟩ := ih (k := k - x.length) (by omega)
      exact ⟨x :: before, g, after, j, by rw [e]; rfl, hj, by simp only [List.flatten_cons, List.length_append]; omega⟩

theorem flatten_take_lt {gs : List Bytes} (hne : ∀ g ∈ gs, g ≠ []) {k : Nat} (hk : k < gs.length) :
    (gs.take k).flatten.length < gs.flatten.length := by
  have e : gs.flatten = (gs.take k).flatten ++ (gs.drop k).flatten := by
    rw [← List.flatten_append, List.take_append_drop]
  have hd : (gs.drop k) = gs[k] :: gs.drop (k + 1) := List.drop_eq_getElem_cons hk
  have := List.length_pos_iff.2 (hne gs[k] (List.getElem_mem hk))
  rw [e, hd]
  simp only [List.flatten_cons, List.length_append]
  omega

namespace PieceTable
variable {t : PieceTable} {seg : Segmentation} {o n c : Nat}

theorem readAs_lt {s : Bytes} (hseg : IsSegmentation seg) (h : ReadAs seg s o n c) : o < s.length ∧ 1 ≤ c := by
  obtain ⟨pre, line, suf, hl, h⟩ := h
  have hlen := hl.length
  rcases h with ⟨h1, h2, h3⟩ | ⟨h1, h2, h3⟩ | ⟨h1, before, g, after, k, h2, h3, h4, h5⟩
  · have := List.length_pos_iff.2 h1; omega
  · omega
  · have := congrArg (fun l => l.flatten.length) h2
    simp only [hseg.flatten, List.flatten_append, List.flatten_cons, List.length_append] at this
    omega

theorem readAs_exists {s : Bytes} (hseg : IsSegmentation seg) (h : o < s.length) : ∃ n c, ReadAs seg s o n c := by
  obtain ⟨n, pre, line, suf, hl, h1, h2, _⟩ := exists_lineAt h
  have hlen := hl.length
  by_cases he : o = pre.length + line.length
  · exact ⟨n, _, pre, line, suf, hl, .inl ⟨by intro e; rw [e] at hlen; simp at hlen; omega, he, rfl⟩⟩
  · by_cases hn : n = 1
    · have hp := hl.pre_eq_nil.2 hn
      have hp' : pre.length = 0 := by rw [hp]; rfl
      exact ⟨n, _, pre, line, suf, hl, .inr (.inl ⟨hn, by omega, rfl⟩)⟩
    · have hk : o - pre.length < (seg line).flatten.length := by rw [hseg.flatten]; omega
      obtain ⟨before, g, after, j, e, hj, hk⟩ := in_cluster hk
      exact ⟨n, _, pre, line, suf, hl, .inr (.inr ⟨hn, before, g, after, j, e, hj, by omega, rfl⟩)⟩

theorem offsetToCoord_read (hw : t.WF) (hn : t.NewlinesOk) (hseg : IsSegmentation seg)
    (h : ReadAs seg t.content o n c) : t.offsetToCoord seg o = .ok (some ⟨n, c⟩) := by
  obtain ⟨pre, line, suf, hl, h⟩ := h
  rcases h with ⟨h1, h2, h3⟩ | ⟨h1, h2, h3⟩ | ⟨h1, before, g, after, k, h2, h3, h4, h5⟩
  · rw [h2, h3]; exact offsetToCoord_newline hw hn hl h1
  · have hp := hl.pre_eq_nil.2 h1
    have := offsetToCoord_inside (seg := seg) hw hn hl h2
    rw [hp] at this
    simp only [List.length_nil, Nat.zero_add, if_pos h1] at this
    rw [this, h3, h1]
  · have hk : before.flatten.length + k < line.length := by
      have := congrArg (fun l => l.flatten.length) h2
      simp only [hseg.flatten, List.flatten_append, List.flatten_cons, List.length_append] at this
      omega
    have := offsetToCoord_inside (seg := seg) hw hn hl hk
    rw [if_neg h1] at this
    have e := clusterStarts_filter_in (hseg.nonempty line) h2 h3 0
    rw [Nat.zero_add] at e
    rw [e] at this
    rw [h4, h5, Nat.add_assoc]
    exact this

theorem readAs_unique (hw : t.WF) (hn : t.NewlinesOk) (hseg : IsSegmentation seg) {n' c' : Nat}
    (h : ReadAs seg t.content o n c) (h' : ReadAs seg t.content o n' c') : n = n' ∧ c = c' := by
  have := (offsetToCoord_read hw hn hseg h).symm.trans (offsetToCoord_read hw hn hseg h')
  simp only [Except.ok.injEq, Option.some.injEq, Coords.mk.injEq] at this
  exact this

theorem maxCoord_read (hw : t.WF) (hn : t.NewlinesOk) (hseg : IsSegmentation seg)
    (h : ReadAs seg t.content (t.content.length - 1) n c) : t.maxCoord seg = .ok ⟨n, c⟩ := by
  unfold maxCoord
  rw [maxOffset_eq hw]
  simp only [except_bind_ok]
  rw [offsetToCoord_read hw hn hseg h]
  rfl

theorem coordToOffset_cluster (hw : t.WF) (hn : t.NewlinesOk) (hseg : IsSegmentation seg)
    (h : ClusterAt seg t.content o n c) : t.coordToOffset seg ⟨n, c⟩ = .ok (some o) := by
  obtain ⟨pre, line, suf, hl, h1, h2, h3⟩ := h
  rw [coordToOffset_at hw hn hseg hl h1, if_pos h2, h3]

theorem clusterAt_le {s : Bytes} (hseg : IsSegmentation seg) (h : ClusterAt seg s o n c) : o ≤ s.length := by
  obtain ⟨pre, line, suf, hl, h1, h2, h3⟩ := h
  have hlen := hl.length
  have : ((seg line).take (c - 1)).flatten.length ≤ line.length := by
    have e : (seg line).flatten = ((seg line).take (c - 1)).flatten ++ ((seg line).drop (c - 1)).flatten := by
      rw [← List.flatten_append, List.take_append_drop]
    rw [hseg.flatten] at e
    have := congrArg List.length e
    simp only [List.length_append] at this
    omega
  omega

/-- the cluster at an offset is the newline exactly when the byte is -/
theorem charAtOffset_any (hw : t.WF) (hn : t.NewlinesOk) (hseg : IsSegmentation seg)
    (ho : o < t.content.length) : ∃ g, t.charAtOffset seg o = .ok (some g) ∧ (g = [NL] ↔ t.content[o] = NL) := by
  have hn' : t.newlines = newlinePositions t.content := hn
  obtain ⟨n, pre, line, suf, hl, h1, h2, _⟩ := exists_lineAt ho
  have hlen := hl.length
  have hfil : (t.newlines.filter (o ≤ ·)).head?.getD t.len = pre.length + line.length := by
    have e1 : (newlinePositions pre).filter (o ≤ ·) = [] := by
      rw [List.filter_eq_nil_iff]
      intro v hv
      have := mem_pre_lt hv; simp; omega
    rw [hn', hl.newlines, List.filter_append, e1, List.nil_append]
    by_cases hs : suf = []
    · subst hs
      rw [newlinePositions_nil]
      simp only [List.map_nil, List.filter_nil, List.head?_nil, Option.getD_none, hw.len_eq, hlen]
      simp
    · obtain ⟨b, bs, rfl⟩ := List.exists_cons_of_ne_nil hs
      have hb : b = NL := by have := hl.stops; simpa using this
      rw [newlinePositions_cons, if_pos hb]
      simp only [List.singleton_append, List.map_cons, Nat.add_zero]
      rw [List.filter_cons_of_pos (by simpa using h2)]
      rfl
  unfold charAtOffset
  simp only [hfil]
  rw [subChecked_ok h2]
  simp only [except_bind_ok]
  rw [range_eq hw (by omega), if_pos ho]
  simp only [except_bind_ok, except_pure, Option.bind_some]
  by_cases hend : o = pre.length + line.length
  · have hsuf : suf ≠ [] := by intro e; rw [e] at hlen; simp at hlen; omega
    obtain ⟨b, bs, rfl⟩ := List.exists_cons_of_ne_nil hsuf
    have hb : b = NL := by have := hl.stops; simpa using this
    have hg : t.content[o]? = some b := by
      rw [hl.split, List.getElem?_append_right (by simp; omega)]
      simp [hend]
    have hg' : t.content[o] = b := by
      rw [List.getElem?_eq_getElem ho] at hg; simpa using hg
    have hsl : slice t.content o (o + max (pre.length + line.length - o) 1) = [b] := by
      have e : o + max (pre.length + line.length - o) 1 = o + 1 := by omega
      rw [e]
      unfold slice
      rw [List.take_add_one, hg, List.drop_append_of_le_length (by rw [List.length_take]; omega),
        List.drop_eq_nil_of_le (by rw [List.length_take]; omega)]
      rfl
    rw [hsl, hb, hseg.ascii [NL] (by intro b hb; simp at hb; subst hb; decide) (Or.inr rfl)]
    exact ⟨[NL], rfl, by simp [hg', hb]⟩
  · have e : o + max (pre.length + line.length - o) 1 = pre.length + line.length := by omega
    rw [e]
    have hsl : slice t.content o (pre.length + line.length) = line.drop (o - pre.length) := by
      unfold slice
      have : t.content.take (pre.length + line.length) = pre ++ line := by
        rw [hl.split]; exact List.take_left' (by simp)
      rw [this, List.drop_append]
      simp [h1]
    have hg : t.content[o] = line[o - pre.length]'(by omega) := by
      have : t.content[o]? = line[o - pre.length]? := by
        rw [hl.split, List.append_assoc, List.getElem?_append_right h1, List.getElem?_append_left (by omega)]
      rw [List.getElem?_eq_getElem ho, List.getElem?_eq_getElem (by omega)] at this
      simpa using this
    have hnn : t.content[o] ≠ NL := by
      rw [hg]; intro e; exact hl.noNewline (e ▸ List.getElem_mem _)
    rw [hsl]
    have hfl := hseg.flatten (line.drop (o - pre.length))
    match hq : seg (line.drop (o - pre.length)) with
    | [] =>
      rw [hq] at hfl
      have := congrArg List.length hfl
      simp at this
      omega
    | g :: gs =>
      refine ⟨g, rfl, ?_⟩
      constructor
      · intro e
        subst e
        rw [hq] at hfl
        exfalso
        apply hl.noNewline
        apply List.mem_of_mem_drop (i := o - pre.length)
        rw [← hfl]
        simp
      · intro e; exact absurd e hnn

end PieceTable

namespace Navigator
open PieceTable
variable {t : PieceTable} {seg : Segmentation} {o n c m p tc w : Nat}

theorem charAt_cluster (hw : t.WF) (hn : t.NewlinesOk) (hseg : IsSegmentation seg)
    (h : ClusterAt seg t.content p m c) :
    (∀ hp : p < t.content.length, ∃ g, t.charAt seg ⟨m, c⟩ = .ok (some g) ∧ (g = [NL] ↔ t.content[p] = NL)) ∧
    (p = t.content.length → ∃ e, t.charAt seg ⟨m, c⟩ = .error e) := by
  unfold charAt
  simp only [coordToOffset_cluster hw hn hseg h, except_bind_ok]
  constructor
  · intro hp
    obtain ⟨g, e, hg⟩ := charAtOffset_any (o := p) hw hn hseg hp
    exact ⟨g, by rw [e]; rfl, hg⟩
  · intro hp
    rw [charAtOffset_past hw hn hp]
    exact ⟨_, rfl⟩

/-- what `pos` does on a line of the text -/
theorem pos_any (hw : t.WF) (hn : t.NewlinesOk) (hseg : IsSegmentation seg) (hne : t.content ≠ []) :
    (∀ o, LandsOn seg t.content n w o → o < t.content.length →
      ∃ q : Position, Navigator.pos seg t ⟨⟨n, c⟩, w⟩ = .ok q ∧ q.offset = o) ∧
    (∀ q : Position, Navigator.pos seg t ⟨⟨n, c⟩, w⟩ = .ok q → LandsOn seg t.content n w q.offset ∧
      q.offset < t.content.length) := by
  have key : ∀ pre line suf, LineAt t.content n pre line suf → 1 ≤ w →
      ClusterAt seg t.content (pre.length + ((seg line).take (min w ((seg line).length + 1) - 1)).flatten.length) n
        (min ((seg line).length + 1) w) := by
    intro pre line suf hl h1
    exact ⟨pre, line, suf, hl, by omega, by omega, by rw [Nat.min_comm]⟩
  constructor
  · rintro o ⟨pre, line, suf, hl, h1, h2⟩ ho
    have hat := key pre line suf hl h1
    rw [← h2] at hat
    unfold Navigator.pos
    simp only [lineBytes_at hw hn hl, except_bind_ok]
    rw [coordToOffset_cluster hw hn hseg hat]
    simp only [except_bind_ok]
    obtain ⟨g, e, _⟩ := (charAt_cluster hw hn hseg hat).1 ho
    rw [e]
    exact ⟨_, rfl, rfl⟩
  · intro q hq
    have hline : ∃ pre line suf, LineAt t.content n pre line suf := by
      unfold Navigator.pos at hq
      rw [lineBytes_eq hw hn hne] at hq
      simp only [except_bind_ok] at hq
      by_cases h0 : n = 0
      · rw [if_pos h0] at hq; cases hq
      · rw [if_neg h0] at hq
        rcases Nat.lt_or_ge (n - 1) (Spec.lines t.content).length with h | h
        · exact exists_line (by omega) (by omega)
        · rw [List.getElem?_eq_none h] at hq; cases hq
    obtain ⟨pre, line, suf, hl⟩ := hline
    by_cases h1 : 1 ≤ w
    · have hat := key pre line suf hl h1
      unfold Navigator.pos at hq
      simp only [lineBytes_at hw hn hl, except_bind_ok] at hq
      rw [coordToOffset_cluster hw hn hseg hat] at hq
      simp only [except_bind_ok] at hq
      have hle := clusterAt_le hseg hat
      rcases Nat.lt_or_eq_of_le hle with ho | ho
      · obtain ⟨g, e, _⟩ := (charAt_cluster hw hn hseg hat).1 ho
        rw [e] at hq
        simp only [except_bind_ok, except_pure, Except.ok.injEq] at hq
        subst hq
        exact ⟨⟨pre, line, suf, hl, h1, rfl⟩, ho⟩
      · obtain ⟨e, he⟩ := (charAt_cluster hw hn hseg hat).2 ho
        rw [he] at hq
        cases hq
    · exfalso
      have hw0 : w = 0 := by omega
      subst hw0
      unfold Navigator.pos at hq
      simp only [lineBytes_at hw hn hl, except_bind_ok] at hq
      have hc : ∃ e, t.coordToOffset seg ⟨n, 0⟩ = .error e := by
        unfold coordToOffset
        rw [if_neg (by have := hl.pos; simp; omega), lineCount_eq hw hn hl.ne_nil]
        simp only [except_bind_ok]
        rw [if_neg (by have := lineAt_le hl; omega)]
        simp only [lineBytes_at hw hn hl, except_bind_ok]
        rw [if_neg (by omega)]
        exact ⟨_, rfl⟩
      obtain ⟨e, hc⟩ := hc
      rw [show min ((seg line).length + 1) 0 = 0 by omega, hc] at hq
      cases hq

/-- the motion of the navigator, both ways -/
theorem move_any (hw : t.WF) (hn : t.NewlinesOk) (hseg : IsSegmentation seg) (hne : t.content ≠ [])
    (hcl : ClusterAt seg t.content p m c) (d : CursorTarget) :
    (∀ n w, HeadedFrom seg t.content m c p tc d n w →
      ∃ c', Navigator.move seg t ⟨⟨m, c⟩, tc⟩ d = .ok ⟨⟨n, c'⟩, w⟩) ∧
    (∀ nv, Navigator.move seg t ⟨⟨m, c⟩, tc⟩ d = .ok nv →
      HeadedFrom seg t.content m c p tc d nv.cursor.l nv.targetCol) := by
  have hpos := List.length_pos_iff.2 hne
  obtain ⟨pre, line, suf, hl, hc1, hc2, hp⟩ := id hcl
  have hm1 := hl.pos
  have hm2 := lineAt_le hl
  obtain ⟨mn, mc, hmax⟩ := readAs_exists (seg := seg) (s := t.content) (o := t.content.length - 1) hseg (by omega)
  have hmaxe := maxCoord_read hw hn hseg hmax
  cases d with
  | left =>
    simp only [Navigator.move, Navigator.previous, BEGIN]
    by_cases hb : m = 1 ∧ c = 1
    · obtain ⟨rfl, rfl⟩ := hb
      rw [if_neg (by simp)]
      constructor
      · intro n w h
        cases h with
        | leftStart => exact ⟨1, rfl⟩
        | leftLine h1 _ h3 => have := h3.pos; omega
        | left h1 h2 => omega
      · intro nv h
        simp only [Except.ok.injEq] at h
        subst h
        exact .leftStart rfl rfl
    · rw [if_pos (by simpa using hb)]
      by_cases hb2 : m ≠ 1 ∧ c = 1
      · rw [if_pos hb2]
        obtain ⟨h1, rfl⟩ := hb2
        obtain ⟨pre', line', suf', hl'⟩ := exists_line (s := t.content) (n := m - 1) (by omega) (by omega)
        simp only [subChecked_ok hm1, except_bind_ok, lineLength_at hw hn hl', except_pure]
        constructor
        · intro n w h
          cases h with
          | leftStart h1' => omega
          | leftLine h1 _ h3 =>
            have : n = m - 1 := by omega
            subst this
            obtain ⟨_, e, _⟩ := hl'.unique h3
            rw [e]; exact ⟨_, rfl⟩
          | left h1 h2 => omega
        · intro nv h
          simp only [Except.ok.injEq] at h
          subst h
          exact .leftLine (by dsimp only; omega) rfl hl'
      · rw [if_neg hb2]
        have hc : 2 ≤ c := by
          rcases Nat.lt_or_ge c 2 with h | h
          · exfalso
            have : c = 1 := by omega
            by_cases hm : m = 1
            · exact hb ⟨hm, this⟩
            · exact hb2 ⟨hm, this⟩
          · exact h
        simp only [subChecked_ok hc1, except_bind_ok, except_pure]
        constructor
        · intro n w h
          cases h with
          | leftStart _ h1' => omega
          | leftLine h1 h2 h3 => omega
          | left h1 h2 =>
            have : w = c - 1 := by omega
            subst this
            exact ⟨_, rfl⟩
        · intro nv h
          simp only [Except.ok.injEq] at h
          subst h
          exact .left (by dsimp only; omega) (by dsimp only; omega)
  | right =>
    simp only [Navigator.move, Navigator.next, hmaxe, except_bind_ok]
    by_cases hend : m = mn ∧ c = mc
    · obtain ⟨rfl, rfl⟩ := hend
      rw [if_pos rfl]
      constructor
      · intro n w h
        cases h with
        | rightEnd => exact ⟨_, rfl⟩
        | rightLine h => exact absurd hmax h
        | right h => exact absurd hmax h
        | rightLast h => exact absurd hmax h
      · intro nv h
        simp only [except_pure, Except.ok.injEq] at h
        subst h
        exact .rightEnd hmax
    · rw [if_neg (by simpa using hend)]
      have hnm : ¬ ReadAs seg t.content (t.content.length - 1) m c :=
        fun h => hend (readAs_unique hw hn hseg h hmax)
      have hple := clusterAt_le hseg hcl
      rcases Nat.lt_or_eq_of_le hple with hlt | heq
      · obtain ⟨g, hg, hgn⟩ := (charAt_cluster hw hn hseg hcl).1 hlt
        rw [hg]
        simp only [except_bind_ok, Option.some.injEq]
        have hget : t.content[p]? = some t.content[p] := List.getElem?_eq_getElem hlt
        by_cases hnl : t.content[p] = NL
        · rw [if_pos (hgn.2 hnl)]
          rw [hnl] at hget
          constructor
          · intro n w h
            cases h with
            | rightEnd h => exact absurd h hnm
            | rightLine _ _ => exact ⟨_, rfl⟩
            | right _ h1 h2 _ => rw [hget] at h1; exact absurd (Option.some.inj h1).symm h2
            | rightLast _ h1 h2 _ => rw [hget] at h1; exact absurd (Option.some.inj h1).symm h2
          · intro nv h
            simp only [except_pure, Except.ok.injEq] at h
            subst h
            exact .rightLine hnm hget
        · rw [if_neg (fun h => hnl (hgn.1 h))]
          simp only [coordToOffset_cluster hw hn hseg hcl, except_bind_ok, unwrapR]
          by_cases hlast : p + 1 = t.content.length
          · rw [offsetToCoord_past hw (by omega) (by omega)]
            constructor
            · intro n w h
              cases h with
              | rightEnd h => exact absurd h hnm
              | rightLine _ h => rw [hget] at h; exact absurd (Option.some.inj h) hnl
              | right _ _ _ h => have := (readAs_lt hseg h).1; omega
              | rightLast => exact ⟨_, rfl⟩
            · intro nv h
              simp only [except_bind_ok, except_pure, Except.ok.injEq] at h
              subst h
              exact .rightLast hnm hget hnl hlast
          · obtain ⟨n1, c1, hr⟩ := readAs_exists (seg := seg) (s := t.content) (o := p + 1) hseg (by omega)
            rw [offsetToCoord_read hw hn hseg hr]
            constructor
            · intro n w h
              cases h with
              | rightEnd h => exact absurd h hnm
              | rightLine _ h => rw [hget] at h; exact absurd (Option.some.inj h) hnl
              | right _ _ _ h =>
                obtain ⟨rfl, rfl⟩ := readAs_unique hw hn hseg hr h
                exact ⟨_, rfl⟩
              | rightLast _ _ _ h => omega
            · intro nv h
              simp only [except_bind_ok, except_pure, Except.ok.injEq] at h
              subst h
              exact .right hnm hget hnl hr
      · obtain ⟨e, he⟩ := (charAt_cluster hw hn hseg hcl).2 heq
        rw [he]
        have hget : t.content[p]? = none := List.getElem?_eq_none (by omega)
        constructor
        · intro n w h
          cases h with
          | rightEnd h => exact absurd h hnm
          | rightLine _ h => rw [hget] at h; cases h
          | right _ h => rw [hget] at h; cases h
          | rightLast _ h => rw [hget] at h; cases h
        · intro nv h; cases h
  | up =>
    simp only [Navigator.move, Navigator.previousLine]
    constructor
    · intro n w h
      cases h with
      | upFirst h1 => rw [if_neg (by omega), h1]; exact ⟨_, rfl⟩
      | up h1 h2 => rw [if_pos (by omega)]; subst h1; exact ⟨_, rfl⟩
    · intro nv h
      simp only [Except.ok.injEq] at h
      subst h
      by_cases h1 : 1 < m
      · rw [if_pos h1]; exact .up (by dsimp only; omega) (by dsimp only; omega)
      · rw [if_neg h1]
        have : m = 1 := by omega
        subst this
        exact .upFirst rfl
  | down =>
    simp only [Navigator.move, Navigator.nextLine, lineCount_eq hw hn hne, except_bind_ok, except_pure]
    constructor
    · intro n w h
      cases h with
      | downLast h1 => rw [if_neg (by unfold Spec.lineCount at h1; omega)]; exact ⟨_, rfl⟩
      | down h1 => rw [if_pos (by unfold Spec.lineCount at h1; exact h1)]; exact ⟨_, rfl⟩
    · intro nv h
      simp only [Except.ok.injEq] at h
      subst h
      by_cases h1 : m < (Spec.lines t.content).length
      · rw [if_pos h1]; exact .down h1
      · rw [if_neg h1]; exact .downLast (by unfold Spec.lineCount; omega)
  | begin =>
    constructor
    · intro n w h; cases h; exact ⟨_, rfl⟩
    · intro nv h
      simp only [Navigator.move, Except.ok.injEq] at h
      subst h
      exact .begin
  | «end» =>
    simp only [Navigator.move, Navigator.end, hmaxe, except_bind_ok, except_pure]
    constructor
    · intro n w h
      cases h with
      | «end» h =>
        obtain ⟨rfl, rfl⟩ := readAs_unique hw hn hseg hmax h
        exact ⟨_, rfl⟩
    · intro nv h
      simp only [Except.ok.injEq] at h
      subst h
      exact .end hmax
  | lineBegin =>
    constructor
    · intro n w h; cases h; exact ⟨_, rfl⟩
    · intro nv h
      simp only [Navigator.move, Except.ok.injEq] at h
      subst h
      exact .lineBegin
  | lineEnd =>
    simp only [Navigator.move, Navigator.lineEnd, lineLength_at hw hn hl, except_bind_ok, except_pure]
    constructor
    · intro n w h
      cases h with
      | lineEnd h =>
        obtain ⟨_, e, _⟩ := hl.unique h
        rw [e]; exact ⟨_, rfl⟩
    · intro nv h
      simp only [Except.ok.injEq] at h
      subst h
      exact .lineEnd hl

end Navigator
end Ced

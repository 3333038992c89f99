import Verif.Proofs.CalmViews

/-! Auxiliary lemmas: safe requests complete (deleting selections). -/

namespace Ced
open Spec Props PieceTable

theorem remaining_ascii {s : Bytes} (h : Ascii s) (sel : Selection) : Ascii (remaining s sel) := by
  unfold remaining
  split
  · intro c hc; simp only [List.mem_singleton] at hc; subst hc; decide
  · intro c hc
    unfold cut at hc
    rcases List.mem_append.1 hc with h1 | h1
    · exact h c (List.mem_of_mem_take h1)
    · exact h c (List.mem_of_mem_drop h1)

theorem remaining_ends {s : Bytes} (h : EndsWithNewline s) {sel : Selection} (hin : Within s sel)
    (hs : hi sel + 1 < s.length ∨ lo sel = 0) : EndsWithNewline (remaining s sel) := by
  unfold remaining
  have hhi : hi sel < s.length := by unfold hi; have := hin.1; have := hin.2; omega
  split
  · rfl
  · rename_i hx
    unfold EndsWithNewline cut at *
    have hlo : lo sel ≤ hi sel := by unfold lo hi; omega
    have hlt : lo sel + (hi sel + 1 - lo sel) < s.length := by
      rcases hs with h1 | h1
      · omega
      · have : hi sel + 1 ≠ s.length := fun e => hx ⟨h1, e⟩
        omega
    rw [List.getLast?_append, List.getLast?_drop, if_neg (by omega), h]
    rfl

/-- one selection can be deleted unless it ends with the final newline and does not begin at the start -/
theorem deleteOne_total {env : Env} (hf : ∀ i, (env.stale i).follows = true) (hseg : IsSegmentation env.seg) {b : Buffer}
    {s : Bytes} {sel : Selection} (h : ForwardHistory b.content) (hs : Shows b.content s) (ha : Ascii s)
    (he : EndsWithNewline s) (hin : Within s sel) (hok : hi sel + 1 < s.length ∨ lo sel = 0) :
    ∃ r, World.deleteInBuffer env b [sel] = .ok r := by
  obtain ⟨e1, e2⟩ := C21_selection (forward_steady h) hs ha he hseg hin.1 hin.2
  have hhi : hi sel < s.length := by unfold hi; have := hin.1; have := hin.2; omega
  have hlo : lo sel ≤ hi sel := by unfold lo hi; omega
  have hdel : ∃ t', b.content.delete (env.stale 0) (lo sel) (hi sel + 1 - lo sel) = .ok t' := by
    by_cases h1 : hi sel + 1 < s.length
    · obtain ⟨t', e, _⟩ := C02_delete_inside (forward_any h) hs (hf 0) (a := lo sel) (n := hi sel + 1 - lo sel) (by omega) (by omega)
      exact ⟨t', e⟩
    · have h0 : lo sel = 0 := hok.resolve_left h1
      obtain ⟨t', e, _⟩ := C02_delete_all (forward_any h) hs (env.stale 0)
      refine ⟨t', ?_⟩
      rw [h0, show hi sel + 1 - 0 = s.length by omega]
      exact e
  obtain ⟨t', e3⟩ := hdel
  unfold lo hi at e3
  unfold World.deleteInBuffer World.deleteOne
  simp only [List.foldlM_cons, List.foldlM_nil]
  rw [e1]
  have e4 : ∀ a e, World.deleteRange env b.content a e = if e < a then .error .index else
    b.content.delete (env.stale 0) a (e - a) := fun _ _ => rfl
  simp only [except_bind_ok, e2, e4]
  rw [if_neg (by omega), e3]
  exact ⟨_, rfl⟩

namespace World
variable {K : Kind} {env : Env} {w w' : World}

theorem deleteAll_total {m : Assoc Str (List Selection)} (hn : (Assoc.keys m).Nodup) {st : World × List Bytes × List Str}
    (h : ∀ kv ∈ m, ∃ b r, st.1.buffers.get kv.1 = some b ∧ deleteInBuffer env b kv.2 = .ok r) :
    ∃ st', m.foldlM (deleteStep env) st = .ok st' := by
  induction m generalizing st with
  | nil => exact ⟨st, rfl⟩
  | cons kv m ih =>
    obtain ⟨b, r, h1, h2⟩ := h kv (by simp)
    have hs : ∃ st1, deleteStep env st kv = .ok st1 ∧ st1.1.buffers = st.1.buffers.set kv.1 r.1 := by
      unfold deleteStep
      rw [h1]
      simp only [unwrapR, except_bind_ok, h2, except_pure]
      exact ⟨_, rfl, rfl⟩
    obtain ⟨st1, e, hb⟩ := hs
    have hn : (kv.1 :: Assoc.keys m).Nodup := hn
    rw [List.nodup_cons] at hn
    obtain ⟨st2, e2⟩ := ih (st := st1) hn.2 (by
      intro kv' hkv'
      obtain ⟨b', r', h1', h2'⟩ := h kv' (by simp [hkv'])
      refine ⟨b', r', ?_, h2'⟩
      rw [hb, Assoc.get_set_ne _ ?_]
      · exact h1'
      · intro e
        exact hn.1 (e ▸ List.mem_map_of_mem hkv'))
    exact ⟨st2, by rw [List.foldlM_cons, e]; exact e2⟩

/-- what the clamping of selections needs -/
structure Clampable (c : Nat) (key : Str) (names : List Str) (w : World) : Prop where
  texts : ∀ n ∈ names, ∃ b, w.buffers.get n = some b ∧ ForwardHistory b.content
  client : ∃ x ss, w.clients.map.get c = some x ∧ x.view.key = key ∧ x.selections.get key = some ss ∧ ∀ n ∈ names, ss.has n = true

theorem clamp_total {c : Nat} {key : Str} {names : List Str} (p : Clampable c key names w) {n : Str} (hn : n ∈ names) :
    ∃ w', w.clampSelections c n = .ok w' ∧ Clampable c key names w' := by
  obtain ⟨b, hb, hh⟩ := p.texts n hn
  obtain ⟨x, ss, h1, h2, h3, h4⟩ := p.client
  obtain ⟨l, hl⟩ := Assoc.has_iff.1 (h4 n hn)
  have hmax := maxOffset_eq (reachable_ready (forward_any hh)).wf
  unfold clampSelections
  rw [Assoc.at_ok hb, except_bind_ok, hmax, except_bind_ok, h1]
  simp only [unwrapR, except_bind_ok, h2, h3, hl, except_pure]
  refine ⟨_, rfl, p.texts, _, _, Assoc.get_set_self _ _ _, h2, Assoc.get_set_self _ _ _, ?_⟩
  intro n' hn'
  rw [Assoc.has_set]
  simp [h4 n' hn']

theorem deleteSelection_total (hseg : K.seg env.seg) (k : Calm K w) {c : Nat}
    {ctx : ClientContext} (hc : w.clients.map.get c = some ctx) (hl : NoLeftover ctx ctx.view)
    (hs : ∀ m n sel b, ctx.selections.get ctx.view.key = some m → m.get n = some [sel] → w.buffers.get n = some b →
        Good K b → K.sel b.content.content sel →
        ∃ b' y, deleteInBuffer env b [sel] = .ok (b', [y]) ∧ Good K b' ∧
          K.sel b'.content.content (sel.clampTo (b'.content.content.length - 1)) ∧
          ∀ d x k m' ss, w.clients.map.get d = some x → x.selections.get k = some m' → ¬ (d = c ∧ k = ctx.view.key) →
            m'.get n = some ss → ∀ sel' ∈ ss, K.sel b'.content.content sel') :
    ∃ r, w.deleteSelection env c = .ok r ∧ Drawn K r.1 := by
  have i := k.inv
  obtain ⟨m, hm, _⟩ := k.sel.all c ctx _ _ hc (i.clients c ctx hc) (by simp)
  have hone := k.one c ctx hc _ m hm
  have hlive := live_view hc
  -- each buffer and its selection
  have each : ∀ kv ∈ m, ∃ b sel b' y, kv.2 = [sel] ∧ m.get kv.1 = some [sel] ∧ kv.1 ∈ ctx.view.buffers ∧
      w.buffers.get kv.1 = some b ∧ deleteInBuffer env b [sel] = .ok (b', [y]) ∧ Good K b' ∧
      K.sel b'.content.content (sel.clampTo (b'.content.content.length - 1)) ∧
      ∀ d x k m' ss, w.clients.map.get d = some x → x.selections.get k = some m' → ¬ (d = c ∧ k = ctx.view.key) →
        m'.get kv.1 = some ss → ∀ sel' ∈ ss, K.sel b'.content.content sel' := by
    intro kv hkv
    have hg := Assoc.mem_get (k := kv.1) (v := kv.2) hone.1 hkv
    obtain ⟨sel, hsel⟩ := hone.2 _ _ hg
    have hn := hl m kv.1 hm (Assoc.has_iff.2 ⟨_, hg⟩)
    obtain ⟨b, hb⟩ := Assoc.has_iff.1 (live_has i hlive _ hn)
    have hgood := k.drawn.good _ b hb
    have hfit := k.drawn.fits ctx.view hlive c ctx m kv.1 kv.2 b hc hm hn hg hb
    rw [hsel] at hg hfit
    obtain ⟨b', y, h1, h2, h3, h4⟩ := hs m kv.1 sel b hm hg hb hgood (hfit sel (by simp))
    exact ⟨b, sel, b', y, hsel, hg, hn, hb, h1, h2, h3, h4⟩
  obtain ⟨st, hst⟩ := deleteAll_total (env := env) hone.1 (st := (w, [], [])) (by
    intro kv hkv
    obtain ⟨b, sel, b', y, e, hg, hn, hb, hr, _⟩ := each kv hkv
    exact ⟨b, _, hb, by rw [e]; exact hr⟩)
  obtain ⟨a1, a2, dls, a3, a4, a5⟩ := deleteAll_ok hone.1 hst
  -- what each buffer becomes
  have hall : List.Forall₂ (fun (kv : Str × List Selection) (dl : List Bytes) => ∃ b sel buf' y, kv.2 = [sel] ∧
      m.get kv.1 = some [sel] ∧ w.buffers.get kv.1 = some b ∧ dl = [y] ∧
      st.1.buffers.get kv.1 = some buf' ∧ Good K buf' ∧
      K.sel buf'.content.content (sel.clampTo (buf'.content.content.length - 1)) ∧
      ∀ d x k m' ss, w.clients.map.get d = some x → x.selections.get k = some m' → ¬ (d = c ∧ k = ctx.view.key) →
        m'.get kv.1 = some ss → ∀ sel' ∈ ss, K.sel buf'.content.content sel') m dls := by
    refine forall2_imp a4 ?_
    intro kv hkv dl hP
    obtain ⟨b0, buf', h1, h2, h3⟩ := hP
    obtain ⟨b, sel, b', y, e, hg, hn, hb, hr, g1, g2, g3⟩ := each kv hkv
    have h1 : w.buffers.get kv.1 = some b0 := h1
    rw [hb] at h1
    obtain rfl : b = b0 := Option.some.inj h1
    rw [e, hr] at h2
    cases h2
    exact ⟨b, sel, _, y, e, hg, hb, rfl, h3, g1, g2, g3⟩
  have hnames : st.2.2 = Assoc.keys m := by
    rw [a5]
    show [] ++ _ = _
    rw [List.nil_append]
    refine zip_names hall ?_
    rintro kv dl ⟨b, sel, buf', y, _, _, _, rfl, _⟩
    simp
  have hst1 : st.1.clients = w.clients := by rw [a1]
  have hst2 : st.1.views = w.views := by rw [a1]
  have hgetk : ∀ b, m.get b = none ↔ b ∉ Assoc.keys m := by
    intro b
    rw [Assoc.mem_keys, ← Assoc.has_false]
    cases Assoc.has m b <;> simp
  -- a buffer of the selections, afterwards
  have hbuf : ∀ n sel, m.get n = some [sel] → ∃ b buf', w.buffers.get n = some b ∧
      st.1.buffers.get n = some buf' ∧ Good K buf' ∧
      K.sel buf'.content.content (sel.clampTo (buf'.content.content.length - 1)) ∧
      ∀ d x k m' ss, w.clients.map.get d = some x → x.selections.get k = some m' → ¬ (d = c ∧ k = ctx.view.key) →
        m'.get n = some ss → ∀ sel' ∈ ss, K.sel buf'.content.content sel' := by
    intro n sel hn
    obtain ⟨dl, _, b, sel', buf', y, e1, _, e2, _, e3, e4, e5, e6⟩ := forall2_mem hall (Assoc.get_mem hn)
    have e1 : [sel] = [sel'] := e1
    cases e1
    exact ⟨b, buf', e2, e3, e4, e5, e6⟩
  have hmem : ∀ n ∈ Assoc.keys m, ∃ sel, m.get n = some [sel] := by
    intro n hn
    rw [Assoc.mem_keys] at hn
    obtain ⟨l, h⟩ := Assoc.has_iff.1 hn
    obtain ⟨sel, rfl⟩ := hone.2 n l h
    exact ⟨sel, h⟩
  have p0 : Clampable c ctx.view.key (Assoc.keys m) st.1 := by
    refine ⟨?_, ctx, m, by rw [hst1]; exact hc, rfl, hm, fun n hn => Assoc.mem_keys.1 hn⟩
    intro n hn
    obtain ⟨sel, h⟩ := hmem n hn
    obtain ⟨_, buf', _, h5, h7, _⟩ := hbuf n sel h
    exact ⟨buf', h5, h7.history⟩
  obtain ⟨w2, h2, p2⟩ := foldlM_total (P := Clampable c ctx.view.key (Assoc.keys m)) (l := Assoc.keys m)
    (f := fun w name => clampSelections w c name) p0 (fun n hn w p => clamp_total p hn)
  obtain ⟨b1, b2, b3, b4, b5, x', m', b6, b7, b8, b9, b10, b11⟩ := clampAll_ok hone.1 h2 (x := ctx) (m := m)
    (by rw [hst1]; exact hc) hm
  have hclamped : ∀ n sel, m.get n = some [sel] → ∀ buf', st.1.buffers.get n = some buf' → Good K buf' →
      m'.get n = some [sel.clampTo (buf'.content.content.length - 1)] := by
    intro n sel hn buf' g5 g7
    have hk : n ∈ Assoc.keys m := by rw [Assoc.mem_keys]; exact Assoc.has_iff.2 ⟨_, hn⟩
    obtain ⟨buf, mx, l, e1, e2, e3, e4⟩ := b11 n hk
    rw [hn] at e3
    cases e3
    rw [g5] at e1
    cases e1
    rw [maxOffset_eq (reachable_ready (forward_any g7.history)).wf] at e2
    cases e2
    exact e4
  have d2 : Drawn K w2 := by
    refine ⟨?_, ?_, ?_⟩
    · intro n b h
      rw [b1] at h
      by_cases hk : n ∈ Assoc.keys m
      · obtain ⟨sel, hsel⟩ := hmem n hk
        obtain ⟨_, buf', _, g5, g7, _⟩ := hbuf n sel hsel
        rw [g5] at h
        cases h; exact g7
      · rw [a2 n hk] at h
        exact k.drawn.good n b h
    · intro n h
      obtain ⟨b, h⟩ := Assoc.has_iff.1 h
      rw [b1] at h
      by_cases hk : n ∈ Assoc.keys m
      · obtain ⟨sel, hsel⟩ := hmem n hk
        obtain ⟨b', _, g1, _⟩ := hbuf n sel hsel
        exact k.drawn.name n (Assoc.has_iff.2 ⟨b', g1⟩)
      · rw [a2 n hk] at h
        exact k.drawn.name n (Assoc.has_iff.2 ⟨b, h⟩)
    · intro v hv d x mm n ss b hd hmm hnv hss hb
      have hlv : Live w v := by
        rcases hv with ⟨k', hk'⟩ | ⟨c', ctx', hc', rfl⟩
        · rw [b2, hst2] at hk'
          exact Or.inl ⟨k', hk'⟩
        · by_cases e : c' = c
          · subst e
            rw [b6] at hc'
            cases hc'
            rw [b7]; exact hlive
          · rw [b5 c' e, hst1] at hc'
            exact live_view hc'
      rw [b1] at hb
      by_cases own : d = c ∧ v.key = ctx.view.key
      · obtain ⟨rfl, ek⟩ := own
        rw [b6] at hd
        cases hd
        rw [ek, b8] at hmm
        cases hmm
        by_cases hk : n ∈ Assoc.keys m
        · obtain ⟨sel, hsel⟩ := hmem n hk
          obtain ⟨b', buf', g1, g5, g7, g2, g3⟩ := hbuf n sel hsel
          rw [hclamped n sel hsel buf' g5 g7] at hss
          cases hss
          rw [g5] at hb
          cases hb
          intro sel' hsel'
          rw [List.mem_singleton] at hsel'
          subst hsel'
          exact g2
        · rw [b10 n hk, (hgetk n).2 hk] at hss
          cases hss
      · have hold : ∃ x0, w.clients.map.get d = some x0 ∧ x0.selections.get v.key = some mm := by
          by_cases e : d = c
          · subst e
            rw [b6] at hd
            cases hd
            have hk : v.key ≠ ctx.view.key := fun e => own ⟨rfl, e⟩
            rw [b9 _ hk] at hmm
            exact ⟨ctx, hc, hmm⟩
          · rw [b5 d e, hst1] at hd
            exact ⟨x, hd, hmm⟩
        obtain ⟨x0, hx0, hmm0⟩ := hold
        by_cases hk : n ∈ Assoc.keys m
        · obtain ⟨sel, hsel⟩ := hmem n hk
          obtain ⟨b', buf', g1, g5, g7, g2, g3⟩ := hbuf n sel hsel
          rw [g5] at hb
          cases hb
          intro sel' hsel'
          exact g3 d x0 v.key mm ss hx0 hmm0 own hss sel' hsel'
        · rw [a2 n hk] at hb
          exact k.drawn.fits v hlv d x0 mm n ss b hx0 hmm0 hnv hss hb
  have wh2 : AllViews AllWhole w2 := by
    refine ⟨?_, ?_⟩
    · rw [b2, hst2]; exact k.whole.views
    · intro d x hd
      by_cases e : d = c
      · subst e
        rw [b6] at hd
        cases hd
        rw [b7]; exact k.whole.clients d ctx hc
      · rw [b5 d e, hst1] at hd
        exact k.whole.clients d x hd
  have hshown : ∀ n ∈ ctx.view.buffers, w2.buffers.has n = true := by
    intro n hn
    rw [b1]
    by_cases hk : n ∈ Assoc.keys m
    · obtain ⟨sel, hsel⟩ := hmem n hk
      obtain ⟨_, buf', _, g5, _⟩ := hbuf n sel hsel
      exact Assoc.has_iff.2 ⟨buf', g5⟩
    · obtain ⟨b, hb⟩ := Assoc.has_iff.1 (live_has i hlive n hn)
      exact Assoc.has_iff.2 ⟨b, by rw [a2 n hk]; exact hb⟩
  unfold deleteSelection
  rw [Assoc.at_ok hc, except_bind_ok, Assoc.at_ok hm, except_bind_ok, hst, except_bind_ok]
  dsimp only
  rw [hnames, h2, except_bind_ok]
  split
  · obtain ⟨o, e⟩ := notify_total (env := env) hseg d2 wh2 (ids := [c]) (by
      intro c' hc'
      rw [List.mem_singleton] at hc'
      subst hc'
      exact ⟨x', b6, by rw [b7]; exact hshown⟩)
    rw [e]
    exact ⟨_, rfl, drawn_same d2 rfl rfl rfl⟩
  · exact ⟨_, rfl, d2⟩

end World
end Ced

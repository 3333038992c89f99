import Verif.Proofs.Calm

/-! Auxiliary lemmas: logging and closing views in a calm state. -/

namespace Ced
open Spec Props PieceTable

theorem asciiStr_append {a b : Str} (ha : AsciiStr a) (hb : AsciiStr b) : AsciiStr (a ++ b) := by
  intro c hc
  rcases List.mem_append.1 hc with h | h
  · exact ha c h
  · exact hb c h

/-- a decidable check -/
def asciiStrB (s : Str) : Bool := s.all fun c => decide (c.val < 128)

theorem asciiStrB_iff {s : Str} : asciiStrB s = true ↔ AsciiStr s := by
  unfold asciiStrB AsciiStr
  simp

theorem Kind.ascii (K : Kind) {s : Str} (h : AsciiStr s) : K.name s := K.lit (asciiStrB_iff.2 h)

theorem Kind.join (K : Kind) {sep : Str} (hs : K.name sep) {l : List Str} (h : ∀ s ∈ l, K.name s) : K.name (View.join sep l) := by
  induction l with
  | nil => exact K.lit rfl
  | cons a l ih =>
    cases l with
    | nil => exact h a (by simp)
    | cons b l =>
      exact K.app (K.app (h a (by simp)) hs) (ih fun s hs => h s (by simp at hs ⊢; exact Or.inr hs))

theorem World.natStr_ascii (n : Nat) : AsciiStr (natStr n) := by
  intro c hc
  have h : c.isDigit = true := decimal_digit hc
  unfold Char.isDigit at h
  simp only [ge_iff_le, Bool.and_eq_true, decide_eq_true_eq] at h
  have h2 := UInt32.le_iff_toNat_le.1 h.2
  rw [UInt32.lt_iff_toNat_lt]
  exact Nat.lt_of_le_of_lt h2 (by decide)

theorem Kind.nat (K : Kind) (n : Nat) : K.name (natStr n) := K.ascii (World.natStr_ascii n)

theorem key_name {K : Kind} {v : View} (hv : AllWhole v) (hn : ∀ n ∈ v.buffers, K.name n) : K.name v.key := by
  unfold View.key
  refine K.join (K.lit rfl) ?_
  intro s hs
  obtain ⟨bg, hb, rfl⟩ := List.mem_map.1 hs
  refine K.app (K.app (K.app (hn _ (List.mem_map_of_mem hb)) (K.lit rfl)) ?_) (K.lit rfl)
  refine K.join (K.lit rfl) ?_
  intro x hx
  obtain ⟨f, hf, rfl⟩ := List.mem_map.1 hx
  rw [(hv bg hb).2 f hf]
  exact K.lit rfl

namespace World
variable {K : Kind} {env : Env} {w w' : World}

theorem live_view {c : Nat} {ctx : ClientContext} (hc : w.clients.map.get c = some ctx) : Live w ctx.view := Or.inr ⟨c, ctx, hc, rfl⟩

theorem mem_clientsWith {name : Str} {c : Nat} (hn : (Assoc.keys w.clients.map).Nodup) (h : c ∈ w.clientsWithBuffer name) :
    ∃ ctx, w.clients.map.get c = some ctx ∧ name ∈ ctx.view.buffers := by
  unfold clientsWithBuffer at h
  split at h
  · cases h
  · obtain ⟨⟨d, ctx⟩, hm, he⟩ := List.mem_filterMap.1 h
    split at he
    · rename_i hx
      cases he
      exact ⟨ctx, Assoc.mem_get hn hm, (View.contains_iff _).1 hx⟩
    · cases he

/-- appending a line to a buffer -/
theorem append_total (hseg : K.seg env.seg) (d : Drawn K w) (a : AllViews AllWhole w)
    (hnd : (Assoc.keys w.clients.map).Nodup) {name : Str} (hn : K.name name) {x : Bytes} (ha : K.text x) (he : EndsWithNewline x)
    (hnew : w.buffers.get name = none → ∀ v, Live w v → ∀ c ctx m, w.clients.map.get c = some ctx →
      ctx.selections.get v.key = some m → name ∈ v.buffers → m.get name = none)
    (hb : ∀ c ctx, w.clients.map.get c = some ctx → name ∈ ctx.view.buffers → ∀ n ∈ ctx.view.buffers, n = name ∨ w.buffers.has n = true) :
    ∃ o, w.appendTo env name x = .ok { w with buffers := w.buffers.set name (appended (w.buffers.get name) name x), out := o } ∧
      Drawn K { w with buffers := w.buffers.set name (appended (w.buffers.get name) name x), out := o } := by
  have hgood : Good K (appended (w.buffers.get name) name x) := by
    cases hg : w.buffers.get name with
    | none => exact good_scratch name (Or.inr ⟨ha, he⟩)
    | some b => exact good_append (d.good name b hg) ha he
  have hfit : ∀ v, Live w v → ∀ c ctx m ss, w.clients.map.get c = some ctx → ctx.selections.get v.key = some m →
      name ∈ v.buffers → m.get name = some ss → Fits K (appended (w.buffers.get name) name x) ss := by
    intro v hv c ctx m ss hc hm hnv hs
    cases hg : w.buffers.get name with
    | none => rw [hnew hg v hv c ctx m hc hm hnv] at hs; cases hs
    | some b => exact fits_append (d.good name b hg) (d.fits v hv c ctx m name ss b hc hm hnv hs hg) ha he
  have dd : ∀ o, Drawn K { w with buffers := w.buffers.set name (appended (w.buffers.get name) name x), out := o } :=
    fun o => drawn_set d hn hgood hfit o
  obtain ⟨o, e⟩ := notify_total (w := { w with buffers := w.buffers.set name (appended (w.buffers.get name) name x) }) hseg (dd _)
    (views_same a rfl rfl)
    (ids := ({ w with buffers := w.buffers.set name (appended (w.buffers.get name) name x) } : World).clientsWithBuffer name) (by
      intro c hc
      obtain ⟨ctx, h1, h2⟩ := mem_clientsWith (by exact hnd) hc
      refine ⟨ctx, h1, ?_⟩
      intro n hnn
      show Assoc.has (w.buffers.set name _) n = true
      rw [Assoc.has_set]
      rcases hb c ctx h1 h2 n hnn with h | h
      · simp [h]
      · simp [h])
  refine ⟨o, ?_, dd o⟩
  unfold appendTo appended at *
  cases hg : w.buffers.get name with
  | none => rw [hg] at e; exact e
  | some b => rw [hg] at e; exact e

/-- logging -/
theorem debug_total (hseg : K.seg env.seg) (d : Drawn K w) (a : AllViews AllWhole w) (hmode : w.debugMode = true)
    (hnd : (Assoc.keys w.clients.map).Nodup) {text : Str} (ht : K.name text)
    (hnew : w.buffers.get BUFFER_DEBUG = none → ∀ v, Live w v → ∀ c ctx m, w.clients.map.get c = some ctx →
      ctx.selections.get v.key = some m → BUFFER_DEBUG ∈ v.buffers → m.get BUFFER_DEBUG = none)
    (hb : ∀ c ctx, w.clients.map.get c = some ctx → BUFFER_DEBUG ∈ ctx.view.buffers →
      ∀ n ∈ ctx.view.buffers, n = BUFFER_DEBUG ∨ w.buffers.has n = true) :
    ∃ w', w.debug env text = .ok w' ∧ Drawn K w' := by
  obtain ⟨o, e, dd⟩ := append_total hseg d a hnd (name := BUFFER_DEBUG) (K.lit rfl)
    (K.enc (K.app ht (b := ['\n']) (K.lit rfl))) (encode_ends text) hnew hb
  refine ⟨_, ?_, dd⟩
  unfold debug
  rw [if_pos hmode]
  exact e

/-- logging between two operations -/
theorem debug_calm (hseg : K.seg env.seg) (i : Inv w) (d : Drawn K w) (a : AllViews AllWhole w) {text : Str} (ht : K.name text) :
    ∃ w', w.debug env text = .ok w' ∧ Drawn K w' := by
  refine debug_total hseg d a i.mode i.cnodup ht ?_ ?_
  · intro hnone v hv c ctx m hc hm hnv
    have : w.buffers.has BUFFER_DEBUG = true := by
      rcases hv with ⟨k, hk⟩ | ⟨c', ctx', hc', rfl⟩
      · exact (i.views k v hk).2.2.2 _ hnv
      · exact (i.views _ _ (i.clients c' ctx' hc')).2.2.2 _ hnv
    rw [Assoc.has_false.2 hnone] at this; cases this
  · intro c ctx hc _ n hn
    exact Or.inr ((i.views _ _ (i.clients c ctx hc)).2.2.2 n hn)

theorem live_has (i : Inv w) {v : View} (hv : Live w v) : ∀ n ∈ v.buffers, w.buffers.has n = true := by
  rcases hv with ⟨k, hk⟩ | ⟨c', ctx', hc', rfl⟩
  · exact (i.views k v hk).2.2.2
  · exact (i.views _ _ (i.clients c' ctx' hc')).2.2.2

theorem append_calm (hseg : K.seg env.seg) (i : Inv w) (d : Drawn K w) (a : AllViews AllWhole w) {name : Str}
    (hn : K.name name) {x : Bytes} (ha : K.text x) (he : EndsWithNewline x) :
    ∃ w', w.appendTo env name x = .ok w' ∧ Drawn K w' := by
  obtain ⟨o, e, dd⟩ := append_total hseg d a i.cnodup hn ha he (by
    intro hnone v hv c ctx m hc hm hnv
    have := live_has i hv _ hnv
    rw [Assoc.has_false.2 hnone] at this; cases this) (by
    intro c ctx hc _ n hn
    exact Or.inr ((i.views _ _ (i.clients c ctx hc)).2.2.2 n hn))
  exact ⟨_, e, dd⟩

/-- the views in use while the view `v` is being closed: its clients are still on it -/
structure Closing (K : Kind) (v : View) (w : World) : Prop where
  drawn : Drawn K w
  whole : AllViews AllWhole w
  mode : w.debugMode = true
  cnodup : (Assoc.keys w.clients.map).Nodup
  views : ∀ k v', w.views.map.get k = some v' → ∀ n ∈ v'.buffers, w.buffers.has n = true
  clients : ∀ c ctx, w.clients.map.get c = some ctx → ctx.view = v ∨ ∃ k, w.views.map.get k = some ctx.view
  bare : ∀ c ctx, w.clients.map.get c = some ctx → ctx.selections.get v.key = none
  log : BUFFER_DEBUG ∈ v.buffers → ∀ b ∈ v.buffers, b = BUFFER_DEBUG ∨ (w.Shown b ∧ w.buffers.has b = true)

theorem shown_get (hn : (Assoc.keys w.views.map).Nodup) {n : Str} : w.Shown n ↔ ∃ k v, w.views.map.get k = some v ∧ n ∈ v.buffers := by
  unfold Shown
  constructor
  · rintro ⟨⟨k, v⟩, hm, hb⟩
    exact ⟨k, v, Assoc.mem_get hn hm, hb⟩
  · rintro ⟨k, v, hk, hb⟩
    exact ⟨(k, v), Assoc.get_mem hk, hb⟩

theorem drop_total (hseg : K.seg env.seg) {v : View} (p : Closing K v w) {b : Str} (hb : K.name b) :
    ∃ w', dropBuffer env w b = .ok w' ∧ Closing K v w' := by
  unfold dropBuffer
  by_cases hs : w.Shown b
  · rw [if_pos ((shown_any w b).2 hs)]
    exact ⟨w, rfl, p⟩
  · rw [if_neg (fun h => hs ((shown_any w b).1 h))]
    have hnot : ∀ k v', w.views.map.get k = some v' → b ∉ v'.buffers := by
      intro k v' hk hm
      exact hs ⟨(k, v'), Assoc.get_mem hk, hm⟩
    have hdel : ∀ n, Assoc.get (w.buffers.del b) n = if n = b then none else w.buffers.get n := fun n => Assoc.get_del _ _ _
    have d0 : Drawn K { w with buffers := w.buffers.del b } := by
      refine ⟨?_, ?_, ?_⟩
      · intro n x h
        have h : Assoc.get (w.buffers.del b) n = some x := h
        rw [hdel] at h
        split at h
        · cases h
        · exact p.drawn.good n x h
      · intro n h
        have h : Assoc.has (w.buffers.del b) n = true := h
        rw [Assoc.has_del] at h
        exact p.drawn.name n (by simp at h; exact h.2)
      · intro v' hv' c ctx m n ss x hc hk hnv hm hx
        have hx : Assoc.get (w.buffers.del b) n = some x := hx
        rw [hdel] at hx
        split at hx
        · cases hx
        · exact p.drawn.fits v' hv' c ctx m n ss x hc hk hnv hm hx
    have hhas : ∀ n, Assoc.has (w.buffers.del b) n = true ↔ n ≠ b ∧ w.buffers.has n = true := by
      intro n; rw [Assoc.has_del]; simp
    have hdbg : ∀ c ctx, w.clients.map.get c = some ctx → BUFFER_DEBUG ∈ ctx.view.buffers →
        ∀ n ∈ ctx.view.buffers, n = BUFFER_DEBUG ∨ Assoc.has (w.buffers.del b) n = true := by
      intro c ctx hc hd n hn
      rcases p.clients c ctx hc with e | ⟨k, hk⟩
      · rw [e] at hd hn
        rcases p.log hd n hn with h | ⟨h1, h2⟩
        · exact Or.inl h
        · right
          rw [hhas]
          refine ⟨?_, h2⟩
          rintro rfl
          exact hs h1
      · right
        rw [hhas]
        refine ⟨?_, p.views k _ hk n hn⟩
        rintro rfl
        exact hnot k _ hk hn
    obtain ⟨w', e, dd⟩ := debug_total (env := env) hseg d0 (views_same p.whole rfl rfl) p.mode p.cnodup
      (text := str!"delete buffer: " ++ b) (K.app (K.lit rfl) hb) (by
        intro hnone v' hv' c ctx m hc hk hnv
        rcases hv' with ⟨k, hk'⟩ | ⟨c', ctx', hc', rfl⟩
        · have hk' : w.views.map.get k = some v' := hk'
          have hnone : Assoc.get (w.buffers.del b) BUFFER_DEBUG = none := hnone
          rw [hdel] at hnone
          split at hnone
          · rename_i e; rw [e] at hnv; exact absurd hnv (hnot k v' hk')
          · have := p.views k v' hk' _ hnv
            rw [Assoc.has_false.2 hnone] at this; cases this
        · have hc' : w.clients.map.get c' = some ctx' := hc'
          rcases p.clients c' ctx' hc' with e | ⟨k, hk'⟩
          · rw [e, p.bare c ctx hc] at hk; cases hk
          · have hnone : Assoc.get (w.buffers.del b) BUFFER_DEBUG = none := hnone
            rw [hdel] at hnone
            split at hnone
            · rename_i e; rw [e] at hnv; exact absurd hnv (hnot k _ hk')
            · have := p.views k _ hk' _ hnv
              rw [Assoc.has_false.2 hnone] at this; cases this) hdbg
    refine ⟨w', e, ?_⟩
    have l := debug_ok e
    have hkeep : ∀ n, Assoc.has (w.buffers.del b) n = true → w'.buffers.has n = true := l.keeps
    refine ⟨dd, views_same p.whole l.clients l.views, l.mode.trans p.mode, by rw [l.clients]; exact p.cnodup, ?_, ?_, ?_, ?_⟩
    · intro k v' hk n hn
      rw [l.views] at hk
      refine hkeep n ((hhas n).2 ⟨?_, p.views k v' hk n hn⟩)
      rintro rfl
      exact hnot k v' hk hn
    · intro c ctx hc
      rw [l.clients] at hc
      rw [l.views]
      exact p.clients c ctx hc
    · intro c ctx hc
      rw [l.clients] at hc
      exact p.bare c ctx hc
    · intro hd n hn
      rcases p.log hd n hn with h | ⟨h1, h2⟩
      · exact Or.inl h
      · right
        refine ⟨by rw [shown_congr l.views]; exact h1, hkeep n ((hhas n).2 ⟨?_, h2⟩)⟩
        rintro rfl
        exact hs h1

end World
end Ced

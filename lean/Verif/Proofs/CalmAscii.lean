import Verif.Proofs.CalmDelete

/-! Auxiliary lemmas: sessions in ASCII (C77). -/

namespace Ced
open Spec Props PieceTable

/-- sessions in ASCII, the selections inside the texts -/
def asciiKind : Kind where
  seg := IsSegmentation
  text := Ascii
  name := AsciiStr
  sel := Inside
  lit h := by simpa [AsciiStr] using h
  app := asciiStr_append
  enc := encode_ascii
  nl := by intro c hc; simp only [List.mem_singleton] at hc; subst hc; decide
  joined := ascii_append
  fresh := by
    intro s _ h
    have := List.length_pos_iff.2 (ends_ne h)
    exact ⟨this, this, Nat.le_refl 1⟩
  longer := by
    intro s x q _ _ _ _ h
    obtain ⟨h1, h2, h3⟩ := h
    exact ⟨by rw [List.length_append]; omega, by rw [List.length_append]; omega, h3⟩
  draws := by
    intro g t q hseg hist ha he h
    obtain ⟨h1, h2, _⟩ := h
    have hst := forward_steady hist
    have hw := (reachable_ready (steady_any hst)).wf
    have hn := steady_newlines hst
    obtain ⟨a, b', e, hat, hbc, _, hb'⟩ := selectionEnds_ascii hw hn hseg ha he h1 h2
    have hac : 1 ≤ a.l ∧ 1 ≤ a.c := by obtain ⟨_, _, _, hl, h, _⟩ := hat; exact ⟨hl.pos, h⟩
    have hfl : q.first ≤ q.last := by unfold Selection.first Selection.last; split <;> split <;> omega
    obtain ⟨rs, e2, _⟩ := selectedRanges_ok hac.1 hac.2 hbc ((hb' _ _ _ hat).1 hfl)
    exact ⟨rs, by rw [e]; exact e2⟩

namespace World
variable {env : Env} {w w' : World}

theorem opens_ascii {name : Str} {scratch : Bool}
    (h : scratch = false →
        (w.buffers.get name = none → ∃ f, env.fs (env.resolve w.cwd name) = some f ∧ Ascii f.content) ∧
        (∀ b, w.buffers.get name = some b → ∃ b' r s, b.loadFromDisk env.stale env.fs env.now = .ok (b', r) ∧
          Shows b'.content s ∧ PlainBytes s ∧ SelectionsFit w name s)) : Opens asciiKind env w name scratch := by
  intro hs
  obtain ⟨h1, h2⟩ := h hs
  refine ⟨?_, fun b hb => ?_⟩
  rotate_left
  · obtain ⟨b', r, s, g1, g2, g3, g4⟩ := h2 b hb
    exact ⟨b', r, s, g1, g2, g3, allSel_of (K := asciiKind) g4⟩
  intro hn
  obtain ⟨f, e, ha⟩ := h1 hn
  exact ⟨f, e, lossy_of_isText (isText_ascii ha), ha⟩

theorem moves_ascii (hseg : IsSegmentation env.seg) {ctx : ClientContext} {dir : CursorTarget} {ext : Bool}
    (hd : dir = .lineEnd → ∀ m n ss sel b s, ctx.selections.get ctx.view.key = some m → m.get n = some ss → sel ∈ ss →
        w.buffers.get n = some b → Shows b.content s → OnEmptyLine s sel.cursor → s.length = 1) :
    ∀ m n ss sel b, ctx.selections.get ctx.view.key = some m → m.get n = some ss → sel ∈ ss → w.buffers.get n = some b →
      Good asciiKind b → Inside b.content.content sel →
      ∃ sel', Selection.move env.seg b.content dir ext sel = .ok sel' ∧ Inside b.content.content sel' := by
  intro m n ss sel b hm hg hsel hb hgood hin
  have hst := forward_steady hgood.history
  have hsh := shows_content (reachable_ready (steady_any hst)).wf
  exact motion_total hst hsh hgood.text hgood.ends hseg hin dir ext (fun e he => hd e m n ss sel b _ hm hg hsel hb hsh he)

theorem move_ascii (hseg : IsSegmentation env.seg) (k : Calm asciiKind w) {c : Nat} {ctx : ClientContext} (hc : w.clients.map.get c = some ctx)
    {dir : CursorTarget} (ext : Bool) (hl : NoLeftover ctx ctx.view)
    (hd : dir = .lineEnd → ∀ m n ss sel b s, ctx.selections.get ctx.view.key = some m → m.get n = some ss → sel ∈ ss →
        w.buffers.get n = some b → Shows b.content s → OnEmptyLine s sel.cursor → s.length = 1) :
    ∃ w', w.moveCursor env c dir ext = .ok w' ∧ Drawn asciiKind w' :=
  move_total (K := asciiKind) hseg k hc ext hl fun m n ss sel b h1 h2 h3 h4 h5 =>
    moves_ascii hseg hd m n ss sel b h1 h2 h3 h4 (k.drawn.good n b h4) h5

theorem deletes_ascii (hseg : IsSegmentation env.seg) (hf : ∀ i, (env.stale i).follows = true) {c : Nat}
    {ctx : ClientContext}
    (hs : ∀ m n sel b s, ctx.selections.get ctx.view.key = some m → m.get n = some [sel] → w.buffers.get n = some b →
        Shows b.content s →
        (hi sel + 1 < s.length ∨ lo sel = 0) ∧
        ∀ d x k m' ss, w.clients.map.get d = some x → x.selections.get k = some m' → ¬ (d = c ∧ k = ctx.view.key) →
          m'.get n = some ss → ∀ sel' ∈ ss, Inside (remaining s sel) sel') :
    ∀ m n sel b, ctx.selections.get ctx.view.key = some m → m.get n = some [sel] → w.buffers.get n = some b →
        Good asciiKind b → Inside b.content.content sel →
        ∃ b' y, deleteInBuffer env b [sel] = .ok (b', [y]) ∧ Good asciiKind b' ∧
          Inside b'.content.content (sel.clampTo (b'.content.content.length - 1)) ∧
          ∀ d x k m' ss, w.clients.map.get d = some x → x.selections.get k = some m' → ¬ (d = c ∧ k = ctx.view.key) →
            m'.get n = some ss → ∀ sel' ∈ ss, Inside b'.content.content sel' := by
  intro m n sel b hm hg hb hgood hin
  have hsh := shows_content (reachable_ready (forward_any hgood.history)).wf
  obtain ⟨hok, hoth⟩ := hs m n sel b _ hm hg hb hsh
  obtain ⟨⟨b', dl⟩, hr⟩ := deleteOne_total hf hseg hgood.history hsh hgood.text hgood.ends ⟨hin.1, hin.2.1⟩ hok
  obtain ⟨d1, d2, d3⟩ := deleteInBuffer_one hf hseg hgood.history hsh hgood.text hgood.ends ⟨hin.1, hin.2.1⟩ hr
  have hcc := (shows_iff (reachable_ready (forward_any d3)).wf).1 d2
  refine ⟨b', selectedText b.content.content sel, by rw [hr, d1], ⟨d3, by rw [hcc]; exact remaining_ascii hgood.text sel,
      by rw [hcc]; exact remaining_ends hgood.ends ⟨hin.1, hin.2.1⟩ hok⟩, ?_, ?_⟩
  · rw [hcc]
    have hwi := (clamp_within (s := b.content.content) (sel := sel) ⟨hin.1, hin.2.1⟩).2 hok
    refine ⟨hwi.1, hwi.2, ?_⟩
    have ht : (sel.clampTo ((remaining b.content.content sel).length - 1)).targetCol = sel.targetCol := by
      unfold Selection.clampTo
      split
      · split <;> rfl
      · rfl
    rw [ht]; exact hin.2.2
  · rw [hcc]
    exact hoth

end World
end Ced

import Verif.Props.UserScreen

/-! # C20, C77: moving around, as long as one likes

The project's test `core/tests/scripts/fuzzy.lua` moves the cursor a thousand times at random; here: any number of motions. -/

namespace Ced.Props
open Spec PieceTable

variable {w : World} {env : Env}

/-- The requests `move` of a client, one after the other. -/
def roam (env : Env) (c : Nat) (ms : List (CursorTarget × Bool)) (w : World) : R World :=
  ms.foldlM (fun w m => w.moveCursor env c m.1 m.2) w

/-- Any number of motions other than to the end of a line, with or without extending the selection, all complete; what they
change is the selections of the client in its view, and nothing else. -/
theorem C20_roaming (h : SafeHistory w) (hseg : IsSegmentation env.seg) (hf : ∀ i, (env.stale i).follows = true) {c : Nat}
    {ctx : ClientContext} (hc : w.clients.map.get c = some ctx) (hl : NoLeftover ctx ctx.view)
    (ms : List (CursorTarget × Bool)) (hms : ∀ m ∈ ms, m.1 ≠ .lineEnd) :
    ∃ w' ctx', roam env c ms w = .ok w' ∧ SafeHistory w' ∧ w'.buffers = w.buffers ∧ w'.views = w.views ∧
      (∀ d, d ≠ c → w'.clients.map.get d = w.clients.map.get d) ∧
      w'.clients.map.get c = some ctx' ∧ ctx'.view = ctx.view ∧
      (∀ k, k ≠ ctx.view.key → ctx'.selections.get k = ctx.selections.get k) ∧ NoLeftover ctx' ctx'.view := by
  induction ms generalizing w ctx with
  | nil => exact ⟨w, ctx, rfl, h, rfl, rfl, fun _ _ => rfl, hc, rfl, fun _ _ => rfl, hl⟩
  | cons m ms ih =>
    have hsafe : Safe env w (.move c m.1 m.2) :=
      ⟨ctx, hc, hl, fun hd => absurd hd (hms m List.mem_cons_self)⟩
    obtain ⟨w1, h1, hs1⟩ := C77_step h hseg hf hsafe
    have h1 : w.moveCursor env c m.1 m.2 = .ok w1 := h1
    obtain ⟨hb, hv, _, _, ho, x, x', mm, mm', hx, hx', hxv, hk, hmm, hmm', hmoved, _⟩ := C34_motion h1
    rw [hc] at hx; cases hx
    have hl1 : NoLeftover x' x'.view := by
      intro m0 n hm0 hn
      rw [hxv] at hm0 ⊢
      rw [hmm'] at hm0; cases hm0
      refine hl mm n hmm ?_
      obtain ⟨ss, hss⟩ := Assoc.has_iff.1 hn
      have := hmoved n
      cases he : mm.get n with
      | some l => exact Assoc.has_iff.2 ⟨l, he⟩
      | none => rw [he] at this; rw [this] at hss; cases hss
    obtain ⟨w', ctx', e, hs', b', v', o', c', xv', k', l'⟩ := ih hs1 hx' hl1 fun q hq => hms q (List.mem_cons_of_mem _ hq)
    refine ⟨w', ctx', ?_, hs', b'.trans hb, v'.trans hv, fun d hd => (o' d hd).trans (ho d hd), c', xv'.trans hxv, ?_, l'⟩
    · unfold roam
      rw [List.foldlM_cons, h1]
      exact e
    · intro k0 hk0
      rw [k' k0 (by rw [hxv]; exact hk0), hk k0 hk0]

/-- The same from the start of an editor, as a script run by `--mode=script` does: whatever the motions and their number, the
script ends. -/
theorem C20_fuzzy (hseg : IsSegmentation env.seg) (hf : ∀ i, (env.stale i).follows = true) {cwd : Path} {args cwdText : Str}
    (ha : AsciiStr args) (hc : AsciiStr cwdText) (c : Nat) (ms : List (CursorTarget × Bool))
    (hms : ∀ m ∈ ms, m.1 ≠ .lineEnd) :
    ∃ w w1 w2 w3, World.start env cwd args cwdText = .ok w ∧ w.addClient env c [] = .ok w1 ∧ roam env c ms w1 = .ok w2 ∧
      w2.buffers = w1.buffers ∧ w2.removeClient env c = .ok w3 := by
  obtain ⟨w, hw, hs⟩ := C77_start hseg ha hc (cwd := cwd)
  obtain ⟨w1, h1, hs1⟩ := C77_step hs hseg hf (op := .join c []) (fun _ => start_single hw)
  have h1 : w.addClient env c [] = .ok w1 := h1
  have hc1 : ∃ x, w1.clients.map.get c = some x := by
    have h1 := h1
    unfold World.addClient at h1
    obtain ⟨ctx, _, h1⟩ := bind_inv h1
    obtain ⟨r, hins, h1⟩ := bind_inv h1
    obtain ⟨w3, hd, h1⟩ := bind_inv h1
    cases h1
    obtain ⟨st, e, _⟩ := StackMap.insert_ok w.clients c ctx
    rw [e] at hins
    cases hins
    refine ⟨ctx, ?_⟩
    show w3.clients.map.get c = _
    rw [(World.debug_ok hd).clients]
    exact Assoc.get_set_self _ _ _
  obtain ⟨x, hx⟩ := hc1
  have hh : CoreHistory NoRemoval w1 := .step (op := .join c []) (.start hw) ⟨(by intro n hn; cases hn), (by intro a b e; cases e)⟩ hf h1
  obtain ⟨w2, x2, h2, hs2, hb, _⟩ := C20_roaming hs1 hseg hf hx (C33_no_leftover hh hx).1 ms hms
  obtain ⟨w3, h3, _⟩ := C77_step hs2 hseg hf (op := .leave c) trivial
  exact ⟨w, w1, w2, w3, hw, h1, h2, hb, h3⟩

/-- C20_fuzzy is not vacuous: a walk in all directions in the session of the first client. -/
example : (do
    let w ← World.start envA [] [] []
    let w ← w.addClient envA 1 []
    let w' ← roam envA 1 [(.right, false), (.down, true), (.left, false), (.up, true), (.end, false), (.down, false)] w
    return decide (w' ≠ w) : R Bool).toOption = some true := by decide +kernel

end Ced.Props

import Verif.Proofs.CalmAscii
import Verif.Proofs.CalmRun

/-! # C77: safe sessions never crash; C30 and C31, exactly -/

namespace Ced.Props
open Spec PieceTable

/-! ### Every safe request completes -/

theorem safe_ascii {env : Env} (hseg : IsSegmentation env.seg) (hf : ∀ i, (env.stale i).follows = true) {w : World}
    (k : World.Calm asciiKind w) {op : CoreOp} (hs : Safe env w op) : SafeIn asciiKind env w op := by
  cases op with
  | edit c name sc => exact ⟨hs.1, hs.2.1, World.opens_ascii hs.2.2⟩
  | scratch c name content =>
    refine ⟨hs.1, hs.2.1, ?_⟩
    rcases hs.2.2 with ⟨h1, h2⟩ | ⟨h1, h2⟩
    · exact .inl ⟨h1, World.allSel_of (K := asciiKind) h2⟩
    · exact .inr ⟨h1, World.allSel_of (K := asciiKind) h2⟩
  | move c dir ext =>
    obtain ⟨ctx, hc, h1, h2⟩ := hs
    exact ⟨ctx, hc, h1, World.moves_ascii hseg h2⟩
  | deleteSelection c =>
    obtain ⟨ctx, hc, h1, h2⟩ := hs
    exact ⟨ctx, hc, h1, World.deletes_ascii hseg hf h2⟩
  | _ => exact hs

theorem safe_calm {w : World} (h : SafeHistory w) : World.Calm asciiKind w := by
  induction h with
  | @start env cwd args cwdText w hseg ha hc h =>
    obtain ⟨w', e, d⟩ := start_total (K := asciiKind) (env := env) (cwd := cwd) hseg ha hc
    rw [h] at e
    cases e
    exact calm_start d h
  | step _ hs hseg hf h ih =>
    obtain ⟨w', e, k⟩ := calm_step (K := asciiKind) hseg hf ih (safe_ascii hseg hf ih hs)
    rw [h] at e
    cases e
    exact k

theorem safe_history {w : World} (h : SafeHistory w) : CoreHistory Ordinary w := by
  induction h with
  | start _ _ _ h => exact .start h
  | step _ hs _ hf h ih => exact .step ih (World.safe_ordinary hs) hf h

theorem safe_clean {w : World} (h : SafeHistory w) : CoreHistory CleanName w := by
  induction h with
  | start _ _ _ h => exact .start h
  | step _ hs _ hf h ih => exact .step ih (World.safe_ordinary hs).1 hf h

/-- C77: an editor whose command line and working directory are ASCII starts. -/
theorem C77_start {env : Env} (hseg : IsSegmentation env.seg) {cwd : Path} {args cwdText : Str} (ha : AsciiStr args)
    (hc : AsciiStr cwdText) : ∃ w, World.start env cwd args cwdText = .ok w ∧ SafeHistory w := by
  obtain ⟨w, e, _⟩ := start_total (K := asciiKind) (env := env) (cwd := cwd) hseg ha hc
  exact ⟨w, e, .start hseg ha hc e⟩

/-- C77: in every state reached by safe requests, every safe request completes. -/
theorem C77_step {w : World} (h : SafeHistory w) {env : Env} (hseg : IsSegmentation env.seg)
    (hf : ∀ i, (env.stale i).follows = true) {op : CoreOp} (hs : Safe env w op) :
    ∃ w', op.run env w = .ok w' ∧ SafeHistory w' := by
  obtain ⟨w', e, _⟩ := calm_run (K := asciiKind) hseg hf (safe_calm h) (safe_ascii hseg hf (safe_calm h) hs)
  exact ⟨w', e, .step h hs hseg hf e⟩

end Ced.Props

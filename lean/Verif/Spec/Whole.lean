import Verif.Spec.AnyChars
import Verif.Spec.Diff
import Verif.Spec.Core

/-! # Sessions in which no character is cut in two (C96) -/

namespace Ced.Spec

/-- The places of the left text, read from `o` on, where a script begins or stops dropping bytes, or puts others in. -/
def oldCutsFrom : Nat → List Diff → List Nat
  | _, [] => []
  | o, .left n :: ds => o :: (o + n) :: oldCutsFrom (o + n) ds
  | o, .both n :: ds => oldCutsFrom (o + n) ds
  | o, .right _ :: ds => o :: oldCutsFrom o ds

/-- The request cuts no character of a text in two, and brings no text that is not one. -/
def KeepsChars (env : Env) (w : World) : CoreOp → Prop
  -- a file that is read again changes the text only between characters
  | .edit _ name false => ∀ b p f s ds, w.buffers.get name = some b → b.source = .file p → env.fs p = some f →
      Shows b.content s → DiffM.diff s f.content = .ok ds → ∀ k ∈ oldCutsFrom 0 ds, IsBoundary s k
  | .scratch _ _ content => IsText content
  | .append _ x xs => IsText (x :: xs)
  -- what is deleted begins and ends between characters
  | .deleteSelection c => ∀ ctx m n sel b s, w.clients.map.get c = some ctx → ctx.selections.get ctx.view.key = some m →
      m.get n = some [sel] → w.buffers.get n = some b → Shows b.content s →
      sel.anchor < s.length ∧ sel.cursor < s.length ∧
      ∀ a e, Spans env.seg s sel a e → a ≤ e → IsBoundary s a ∧ IsBoundary s e
  | _ => True

/-- The states reached from the start by such requests. -/
inductive WholeHistory : World → Prop
  | start {env : Env} {cwd : Path} {args cwdText : Str} {w : World} (h : World.start env cwd args cwdText = .ok w) :
      WholeHistory w
  | step {env : Env} {w w' : World} {op : CoreOp} (r : WholeHistory w) (hk : KeepsChars env w op)
      (hseg : IsSegmentation env.seg) (hf : ∀ i, (env.stale i).follows = true) (h : op.run env w = .ok w') : WholeHistory w'

end Ced.Spec

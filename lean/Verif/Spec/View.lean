import Verif.Model.View

/-! # Specification of views: the lenses added and not removed -/

namespace Ced.Spec

/-- Changes of a view. -/
inductive LensOp where
  | add (buffer : Str) (focus : Focus)
  | remove (buffer : Str)
deriving DecidableEq, Repr

/-- The lenses that remain, in the order in which they were added. -/
def lensesAfter (ops : List LensOp) : List (Str × Focus) :=
  ops.foldl (fun ls op => match op with
    | .add b f => ls ++ [(b, f)]
    | .remove b => ls.filter fun l => l.1 ≠ b) []

/-- Whole-buffer lenses come last; ranges are ordered by their start, then by their end. -/
def FocusLe : Focus → Focus → Prop
  | _, .whole => True
  | .whole, .range _ _ => False
  | .range a b, .range c d => a < c ∨ (a = c ∧ b ≤ d)

end Ced.Spec

namespace Ced.Spec

/-- The items of a list of lenses: one group per buffer, in the order of the names; a group is a header followed by
the lenses of the buffer, in the order of the focuses; the header spans from the first to the last of them. -/
def IsItems (lenses : List (Str × Focus)) (items : List ViewItem) : Prop :=
  ∃ groups : List (Str × Focus × List Focus),
    items = groups.flatMap (fun g => .header g.1 g.2.1 :: g.2.2.map (.lens g.1)) ∧
    (groups.map (·.1)).Pairwise (fun a b => strLt a b = true) ∧
    (∀ g ∈ groups, g.2.2 ≠ [] ∧ g.2.2.Pairwise FocusLe) ∧
    (groups.flatMap fun g => g.2.2.map fun f => (g.1, f)).Perm lenses ∧
    (∀ g ∈ groups, (g.2.1 = .whole ↔ Focus.whole ∈ g.2.2) ∧
      ∀ a b, g.2.1 = .range a b →
        (∃ x, g.2.2.head? = some (.range a x)) ∧ ∃ y, g.2.2.getLast? = some (.range y b))

/-- The cell (line `i`, column `k`, from 0) of a lens sent to a client has the selection face. -/
def Highlighted (l : ViewParamsLens) (i k : Nat) : Prop :=
  ∃ line, l.lines[i]? = some line ∧ ∃ r ∈ line.selected, r.1 ≤ k ∧ k < r.2

end Ced.Spec

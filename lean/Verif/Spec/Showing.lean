import Verif.Spec.MotionAny

/-!
# When a client can be shown its selections

The editor draws a selection from the line and the column it reads off its first end to where a motion to the right from
its last end would put the cursor; no text is drawn if it cannot do both.
-/

namespace Ced.Spec

/-- The selection between the ends `a` and `b`, `a ≤ b`, can be drawn in the text `s`.  A last end behind the text is taken
for the start of the text. -/
def CanShow (seg : Segmentation) (s : Bytes) (a b : Nat) : Prop :=
  (s = [] ∧ a = 0 ∧ b = 0) ∨
  a < s.length ∧
  (b + 1 = s.length ∨
   ∃ e m c n w o, (b < s.length → e = b) ∧ (s.length ≤ b → e = 0) ∧
    ReadAs seg s e m c ∧ Headed seg s e c .right n w ∧ LandsOn seg s n w o ∧ o < s.length)

/-- The drawing of a selection whose last end is `b` stops before column `c` of line `n`: one column after the one read off `b`
if `b` is the last byte of the text, otherwise where a motion to the right from `b` puts the cursor. -/
def DrawnTo (seg : Segmentation) (s : Bytes) (b n c : Nat) : Prop :=
  (b + 1 = s.length ∧ ∃ c0, ReadAs seg s b n c0 ∧ c = c0 + 1) ∨
  (b + 1 ≠ s.length ∧ ∃ e m c0 w pre line suf, (b < s.length → e = b) ∧ (s.length ≤ b → e = 0) ∧
    ReadAs seg s e m c0 ∧ Headed seg s e c0 .right n w ∧ LineAt s n pre line suf ∧ c = min w ((seg line).length + 1))

/-- The cell of column `k` of line `i`, the line being drawn as a text of `len` bytes, is drawn as selected, for a drawing that
starts at column `c1` of line `n1` and stops before column `c2` of line `n2`.  Columns are taken for byte numbers. -/
def CellDrawn (n1 c1 n2 c2 len i k : Nat) : Prop :=
  (n1 < i ∨ (n1 = i ∧ c1 ≤ k)) ∧ ((i < n2 ∧ k ≤ len) ∨ (i = n2 ∧ k < c2))

end Ced.Spec

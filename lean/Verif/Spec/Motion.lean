import Verif.Spec.Coords

/-!
# Where a motion is headed

A motion picks a line and a column it wants; the cursor then goes to that column of the line, or to its end if the line
is shorter.
-/

namespace Ced.Spec

/-- From offset `o` of `s`, with the remembered column `tc`, a motion is headed for line `n` and wants column `w`. -/
def Heads (s : Bytes) (o tc : Nat) : CursorTarget → Nat → Nat → Prop
  | .left, n, w => if o = 0 then n = 1 ∧ w = tc else At s (o - 1) n w
  | .right, n, w => if o + 1 = s.length then (∃ c, At s o n c) ∧ w = tc else At s (o + 1) n w
  | .up, n, w => (∃ m c, At s o m c ∧ n = if m = 1 then 1 else m - 1) ∧ w = tc
  | .down, n, w => (∃ m c, At s o m c ∧ n = if m = lineCount s then m else m + 1) ∧ w = tc
  | .begin, n, w => n = 1 ∧ w = 1
  | .end, n, w => At s (s.length - 1) n w
  | .lineBegin, n, w => (∃ c, At s o n c) ∧ w = 1
  | .lineEnd, n, w => (∃ c, At s o n c) ∧ ∃ pre line suf, LineAt s n pre line suf ∧ w = line.length

end Ced.Spec

import Verif.Model.Locks

/-! # What waiting for a lock means -/

namespace Ced.Spec
open Locks

/-- The locks that are held after what was done, by the one who did it. -/
def heldAfter : List Act → List Lock → List Lock
  | [], h => h
  | .take l :: as, h => heldAfter as (l :: h)
  | .give l :: as, h => heldAfter as (h.erase l)
  | _ :: as, h => heldAfter as h

/-- The part of a task in what was done by several. -/
def doneBy (i : Nat) (log : List (Nat × Act)) : List Act := log.filterMap fun x => if x.1 = i then some x.2 else none

/-- Several tasks on one thread: each does what its program does, or the beginning of it, and another one gets its turn only when the
one before has given the control back. -/
structure TakeTurns (task : Nat → Prog) (log : List (Nat × Act)) : Prop where
  does : ∀ i, ∃ as, Does (task i) as ∧ doneBy i log <+: as
  turns : ∀ pre i a j b post, log = pre ++ (i, a) :: (j, b) :: post → i ≠ j → a = .wait

/-- Of two threads that run at the same time: what one of them does next has to wait.  A lock is held, by itself or by the other one; the
channel is full; nothing is in the channel. -/
def Stuck (room waiting : Nat) (mine others : List Lock) : Act → Prop
  | .take l => l ∈ mine ∨ l ∈ others
  | .tell => room ≤ waiting
  | .wait => waiting = 0
  | .give _ => False
  | .write => False

end Ced.Spec

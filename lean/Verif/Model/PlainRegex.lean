import Verif.Model.Menu

/-!
# The regular expressions of plain searches

What the crate `regex` (an external dependency) does for the patterns `(?i)(w1).*(w2)...` built by menu.rs:149-157 from
words without special characters: the leftmost match, found as a backtracking matcher would find it, `.*` taking as much
as it can and never a newline.  The case-insensitive comparison of characters is a parameter.
-/

namespace Ced.PlainRegex

/-- The literal `w`, ignoring case, at the start of a text. -/
def prefixFold (same : Char → Char → Bool) : Str → Str → Bool
  | [], _ => true
  | _ :: _, [] => false
  | a :: as, b :: bs => same a b && prefixFold same as bs

/-- `.*` followed by `k`, at the position `pos` of the text. -/
def gap {α : Type} (k : Str → Nat → Option α) : Str → Nat → Option α
  | [], pos => k [] pos
  | c :: s, pos =>
    if c = '\n' then k (c :: s) pos
    else match gap k s (pos + 1) with
      | some r => some r
      | none => k (c :: s) pos

/-- `(w1).*(w2)...` at a position: the ranges of the groups. -/
def words (same : Char → Char → Bool) : List Str → Str → Nat → Option (List (Nat × Nat))
  | [], _, _ => some []
  | [w], s, pos => if prefixFold same w s then some [(pos, pos + w.length)] else none
  | w :: w' :: ws, s, pos =>
    if prefixFold same w s then
      (gap (words same (w' :: ws)) (s.drop w.length) (pos + w.length)).map ((pos, pos + w.length) :: ·)
    else none

/-- The leftmost match. -/
def search (same : Char → Char → Bool) (ws : List Str) : Str → Nat → Option Locations
  | [], pos => (words same ws [] pos).map fun gs => some (pos, (gs.getLastD (pos, pos)).2) :: gs.map some
  | c :: s, pos =>
    match words same ws (c :: s) pos with
    | some gs => some (some (pos, (gs.getLastD (pos, pos)).2) :: gs.map some)
    | none => search same ws s (pos + 1)

/-- The compiled pattern of plain words. -/
def regex (same : Char → Char → Bool) (ws : List Str) : Regex := fun text => search same ws text 0

end Ced.PlainRegex

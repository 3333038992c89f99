import Verif.Spec.Unicode
import Verif.Model.Core

/-! # `char::is_whitespace` is Unicode's White_Space -/

namespace Ced
open Spec
theorem white_eq (c : Char) : isWhitespaceChar c = white c := by
  rw [Bool.eq_iff_iff]
  have key : ∀ d : Char, c = d ↔ c.toNat = d.toNat := by
    intro d
    refine ⟨fun h => by rw [h], fun h => ?_⟩
    exact Char.toNat_inj.1 h
  simp only [white, whiteSpace, List.contains_iff_mem, List.mem_cons, List.not_mem_nil, or_false, key]
  simp only [isWhitespaceChar, Bool.or_eq_true, Bool.and_eq_true, decide_eq_true_eq]
  simp only [show '\x09'.toNat = 9 from rfl, show '\x0a'.toNat = 10 from rfl, show '\x0b'.toNat = 11 from rfl,
    show '\x0c'.toNat = 12 from rfl, show '\x0d'.toNat = 13 from rfl, show ' '.toNat = 32 from rfl,
    show '\u0085'.toNat = 0x85 from rfl, show '\u00a0'.toNat = 0xa0 from rfl, show '\u1680'.toNat = 0x1680 from rfl,
    show '\u2000'.toNat = 0x2000 from rfl, show '\u2001'.toNat = 0x2001 from rfl, show '\u2002'.toNat = 0x2002 from rfl,
    show '\u2003'.toNat = 0x2003 from rfl, show '\u2004'.toNat = 0x2004 from rfl, show '\u2005'.toNat = 0x2005 from rfl,
    show '\u2006'.toNat = 0x2006 from rfl, show '\u2007'.toNat = 0x2007 from rfl, show '\u2008'.toNat = 0x2008 from rfl,
    show '\u2009'.toNat = 0x2009 from rfl, show '\u200a'.toNat = 0x200a from rfl, show '\u2028'.toNat = 0x2028 from rfl,
    show '\u2029'.toNat = 0x2029 from rfl, show '\u202f'.toNat = 0x202f from rfl, show '\u205f'.toNat = 0x205f from rfl,
    show '\u3000'.toNat = 0x3000 from rfl]
  omega

end Ced

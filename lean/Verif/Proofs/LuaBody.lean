import Verif.Spec.LuaEnv
import Verif.Proofs.LuaEnv

/-! # The reader of Lua literals reads what the manual says -/

namespace Ced.LuaLex
open Spec

theorem char_ext {a b : Char} (h : a.toNat = b.toNat) : a = b := Char.ext (UInt32.toNat_inj.1 h)

/-- a digit, by its code -/
theorem hexValue_iff (c : Char) (d : Nat) : hexValue c = some d ↔ (c, d) ∈ hexDigits := by
  constructor
  · intro h
    unfold hexValue at h
    have key : ∀ n, c.toNat = n → ∀ e : Char, e.toNat = n → c = e := fun n h1 e h2 => char_ext (h1.trans h2.symm)
    split at h
    · rename_i hc
      have h1 : 48 ≤ c.toNat := hc.1
      have h2 : c.toNat ≤ 57 := hc.2
      cases h
      have : c.toNat = 48 ∨ c.toNat = 49 ∨ c.toNat = 50 ∨ c.toNat = 51 ∨ c.toNat = 52 ∨ c.toNat = 53 ∨ c.toNat = 54 ∨
        c.toNat = 55 ∨ c.toNat = 56 ∨ c.toNat = 57 := by omega
      rcases this with h | h | h | h | h | h | h | h | h | h <;> rw [h]
      · rw [key _ h '0' rfl]; decide
      · rw [key _ h '1' rfl]; decide
      · rw [key _ h '2' rfl]; decide
      · rw [key _ h '3' rfl]; decide
      · rw [key _ h '4' rfl]; decide
      · rw [key _ h '5' rfl]; decide
      · rw [key _ h '6' rfl]; decide
      · rw [key _ h '7' rfl]; decide
      · rw [key _ h '8' rfl]; decide
      · rw [key _ h '9' rfl]; decide
    · split at h
      · rename_i hc
        have h1 : 97 ≤ c.toNat := hc.1
        have h2 : c.toNat ≤ 102 := hc.2
        cases h
        have : c.toNat = 97 ∨ c.toNat = 98 ∨ c.toNat = 99 ∨ c.toNat = 100 ∨ c.toNat = 101 ∨ c.toNat = 102 := by omega
        rcases this with h | h | h | h | h | h <;> rw [h]
        · rw [key _ h 'a' rfl]; decide
        · rw [key _ h 'b' rfl]; decide
        · rw [key _ h 'c' rfl]; decide
        · rw [key _ h 'd' rfl]; decide
        · rw [key _ h 'e' rfl]; decide
        · rw [key _ h 'f' rfl]; decide
      · split at h
        · rename_i hc
          have h1 : 65 ≤ c.toNat := hc.1
          have h2 : c.toNat ≤ 70 := hc.2
          cases h
          have : c.toNat = 65 ∨ c.toNat = 66 ∨ c.toNat = 67 ∨ c.toNat = 68 ∨ c.toNat = 69 ∨ c.toNat = 70 := by omega
          rcases this with h | h | h | h | h | h <;> rw [h]
          · rw [key _ h 'A' rfl]; decide
          · rw [key _ h 'B' rfl]; decide
          · rw [key _ h 'C' rfl]; decide
          · rw [key _ h 'D' rfl]; decide
          · rw [key _ h 'E' rfl]; decide
          · rw [key _ h 'F' rfl]; decide
        · cases h
  · intro h
    simp only [hexDigits, List.mem_cons, List.not_mem_nil, or_false, Prod.mk.injEq] at h
    rcases h with ⟨rfl, rfl⟩ | ⟨rfl, rfl⟩ | ⟨rfl, rfl⟩ | ⟨rfl, rfl⟩ | ⟨rfl, rfl⟩ | ⟨rfl, rfl⟩ | ⟨rfl, rfl⟩ | ⟨rfl, rfl⟩ |
      ⟨rfl, rfl⟩ | ⟨rfl, rfl⟩ | ⟨rfl, rfl⟩ | ⟨rfl, rfl⟩ | ⟨rfl, rfl⟩ | ⟨rfl, rfl⟩ | ⟨rfl, rfl⟩ | ⟨rfl, rfl⟩ | ⟨rfl, rfl⟩ |
      ⟨rfl, rfl⟩ | ⟨rfl, rfl⟩ | ⟨rfl, rfl⟩ | ⟨rfl, rfl⟩ | ⟨rfl, rfl⟩ <;> rfl

theorem decValue_hex (c : Char) (d : Nat) : decValue c = some d → hexValue c = some d := by
  unfold decValue hexValue
  intro h
  split at h
  · rename_i hc; rw [if_pos hc]; exact h
  · cases h

theorem decValue_iff (c : Char) (d : Nat) : decValue c = some d ↔ (c, d) ∈ decDigits := by
  constructor
  · intro h
    have h1 := (hexValue_iff c d).1 (decValue_hex c d h)
    have hd : c.toNat ≤ 57 := by
      unfold decValue at h
      split at h
      · rename_i hc; exact hc.2
      · cases h
    simp only [hexDigits, List.mem_cons, List.not_mem_nil, or_false, Prod.mk.injEq] at h1
    rcases h1 with ⟨rfl, rfl⟩ | ⟨rfl, rfl⟩ | ⟨rfl, rfl⟩ | ⟨rfl, rfl⟩ | ⟨rfl, rfl⟩ | ⟨rfl, rfl⟩ | ⟨rfl, rfl⟩ | ⟨rfl, rfl⟩ |
      ⟨rfl, rfl⟩ | ⟨rfl, rfl⟩ | ⟨rfl, rfl⟩ | ⟨rfl, rfl⟩ | ⟨rfl, rfl⟩ | ⟨rfl, rfl⟩ | ⟨rfl, rfl⟩ | ⟨rfl, rfl⟩ | ⟨rfl, rfl⟩ |
      ⟨rfl, rfl⟩ | ⟨rfl, rfl⟩ | ⟨rfl, rfl⟩ | ⟨rfl, rfl⟩ | ⟨rfl, rfl⟩ <;>
      first | decide | (exact absurd hd (by decide))
  · intro h
    have : decDigits = [('0', 0), ('1', 1), ('2', 2), ('3', 3), ('4', 4), ('5', 5), ('6', 6), ('7', 7), ('8', 8), ('9', 9)] := rfl
    rw [this] at h
    simp only [List.mem_cons, List.not_mem_nil, or_false, Prod.mk.injEq] at h
    rcases h with ⟨rfl, rfl⟩ | ⟨rfl, rfl⟩ | ⟨rfl, rfl⟩ | ⟨rfl, rfl⟩ | ⟨rfl, rfl⟩ | ⟨rfl, rfl⟩ | ⟨rfl, rfl⟩ | ⟨rfl, rfl⟩ |
      ⟨rfl, rfl⟩ | ⟨rfl, rfl⟩ <;> rfl

theorem decValue_none (c : Char) : decValue c = none ↔ c ∉ decDigits.map Prod.fst := by
  constructor
  · intro h hm
    obtain ⟨⟨a, d⟩, h1, h2⟩ := List.mem_map.1 hm
    dsimp only at h2
    subst h2
    rw [(decValue_iff a d).2 h1] at h
    cases h
  · intro h
    cases hd : decValue c with
    | none => rfl
    | some d => exact absurd (List.mem_map.2 ⟨(c, d), (decValue_iff c d).1 hd, rfl⟩) h

theorem isSpace_iff (c : Char) : isSpace c = true ↔ c ∈ luaSpaces := by
  unfold isSpace
  constructor
  · intro h
    have : c.toNat = 32 ∨ c.toNat = 9 ∨ c.toNat = 10 ∨ c.toNat = 11 ∨ c.toNat = 12 ∨ c.toNat = 13 := by
      simp only [Bool.or_eq_true, decide_eq_true_eq, Bool.and_eq_true] at h; omega
    have key : ∀ n, c.toNat = n → ∀ e : Char, e.toNat = n → c = e := fun n h1 e h2 => char_ext (h1.trans h2.symm)
    rcases this with h | h | h | h | h | h
    · rw [key _ h ' ' rfl]; decide
    · rw [key _ h '\t' rfl]; decide
    · rw [key _ h '\n' rfl]; decide
    · rw [key _ h '\x0b' rfl]; decide
    · rw [key _ h '\x0c' rfl]; decide
    · rw [key _ h '\r' rfl]; decide
  · intro h
    simp only [luaSpaces, List.mem_cons, List.not_mem_nil, or_false] at h
    rcases h with rfl | rfl | rfl | rfl | rfl | rfl <;> rfl

theorem letter_iff (c : Char) (b : UInt8) : letter c = some b ↔ (c, b) ∈ escapes := by
  constructor
  · intro h
    have : letter c = some b → (c, b) ∈ [('a', (7 : UInt8)), ('b', 8), ('f', 12), ('n', 10), ('r', 13), ('t', 9), ('v', 11), ('\\', 92), ('"', 34), ('\'', 39)] := by
      unfold letter
      generalize [('a', (7 : UInt8)), ('b', 8), ('f', 12), ('n', 10), ('r', 13), ('t', 9), ('v', 11), ('\\', 92), ('"', 34), ('\'', 39)] = l
      intro h
      induction l with
      | nil => cases h
      | cons x l ih =>
        obtain ⟨a, y⟩ := x
        rw [List.lookup_cons] at h
        split at h
        · rename_i e; simp only [beq_iff_eq] at e; cases h; subst e; exact List.mem_cons_self
        · exact List.mem_cons_of_mem _ (ih h)
    have := this h
    simp only [List.mem_cons, List.not_mem_nil, or_false, Prod.mk.injEq] at this
    rcases this with ⟨rfl, rfl⟩ | ⟨rfl, rfl⟩ | ⟨rfl, rfl⟩ | ⟨rfl, rfl⟩ | ⟨rfl, rfl⟩ | ⟨rfl, rfl⟩ | ⟨rfl, rfl⟩ | ⟨rfl, rfl⟩ |
      ⟨rfl, rfl⟩ | ⟨rfl, rfl⟩ <;> decide
  · intro h
    simp only [escapes, List.mem_cons, List.not_mem_nil, or_false, Prod.mk.injEq] at h
    rcases h with ⟨rfl, rfl⟩ | ⟨rfl, rfl⟩ | ⟨rfl, rfl⟩ | ⟨rfl, rfl⟩ | ⟨rfl, rfl⟩ | ⟨rfl, rfl⟩ | ⟨rfl, rfl⟩ | ⟨rfl, rfl⟩ |
      ⟨rfl, rfl⟩ | ⟨rfl, rfl⟩ <;> rfl

theorem utf8Esc_eq {v : Nat} (hv : v ≤ 0x10FFFF) : utf8Esc v = utf8Of v := by
  unfold utf8Of
  by_cases hs : 0xD800 ≤ v ∧ v < 0xE000
  · rw [if_pos hs]
    unfold utf8Esc
    rw [if_neg (by omega), if_neg (by omega), if_pos (by omega)]
    have : v / 4096 = 13 := by omega
    rw [this]
    rfl
  · rw [if_neg hs]
    have hval : v.isValidChar := by unfold Nat.isValidChar; omega
    have hto : (Char.ofNat v).val.toNat = v := by
      rw [Char.ofNat, dif_pos hval]; rfl
    simp only [Str.encode, List.flatMap_cons, List.flatMap_nil, List.append_nil]
    unfold String.utf8EncodeChar utf8Esc
    simp only [hto]
    have e1 : v < 0x110000 := by omega
    by_cases h1 : v < 0x80
    · rw [if_pos h1, if_pos (show v ≤ 0x7f by omega)]
    rw [if_neg h1, if_neg (show ¬ v ≤ 0x7f by omega)]
    by_cases h2 : v < 0x800
    · rw [if_pos h2, if_pos (show v ≤ 0x7ff by omega)]
      rw [show v / 64 % 0x20 + 0xc0 = 0xC0 + v / 64 by omega, show v % 0x40 + 0x80 = 0x80 + v % 64 by omega]
    rw [if_neg h2, if_neg (show ¬ v ≤ 0x7ff by omega)]
    by_cases h3 : v < 0x10000
    · rw [if_pos h3, if_pos (show v ≤ 0xffff by omega)]
      rw [show v / 4096 % 0x10 + 0xe0 = 0xE0 + v / 4096 by omega, show v / 64 % 0x40 + 0x80 = 0x80 + v / 64 % 64 by omega,
        show v % 0x40 + 0x80 = 0x80 + v % 64 by omega]
    rw [if_neg h3, if_neg (show ¬ v ≤ 0xffff by omega)]
    rw [show v / 262144 % 0x08 + 0xf0 = 0xF0 + v / 262144 by omega, show v / 4096 % 0x40 + 0x80 = 0x80 + v / 4096 % 64 by omega,
      show v / 64 % 0x40 + 0x80 = 0x80 + v / 64 % 64 by omega, show v % 0x40 + 0x80 = 0x80 + v % 64 by omega]

theorem read_cons (st : LuaLex) (c : Char) (cs : Str) : read st (c :: cs) =
    match step st c with
    | .fail => none
    | .close out => some (out, cs)
    | .go st' out => (read st' cs).map fun r => (out ++ r.1, r.2) := rfl

/-- a value before what is read of the text -/
def put (b : Bytes) (r : Option (Bytes × Str)) : Option (Bytes × Str) := r.map fun r => (b ++ r.1, r.2)

theorem put_nil (r : Option (Bytes × Str)) : put [] r = r := by cases r <;> rfl
theorem put_put (a b : Bytes) (r : Option (Bytes × Str)) : put a (put b r) = put (a ++ b) r := by
  cases r <;> simp [put]

/-- the text, after some bytes -/
theorem read_after (st : LuaLex) (b : Bytes) (c : Char) (cs : Str) (h : step st c = (textStep c).after b) :
    read st (c :: cs) = put b (read .text (c :: cs)) := by
  rw [read_cons, read_cons, h, show step .text c = textStep c from rfl]
  cases textStep c with
  | fail => rfl
  | close out => rfl
  | go st' out => simp [LuaStep.after, put, Function.comp_def]

theorem read_skip (cs : Str) : read .skip cs = read .text (cs.dropWhile isSpace) := by
  induction cs with
  | nil => rfl
  | cons c cs ih =>
    by_cases hc : isSpace c = true
    · rw [read_cons, show step .skip c = .go .skip [] by simp [step, hc], List.dropWhile_cons_of_pos hc]
      dsimp only
      rw [ih]
      exact put_nil _
    · rw [List.dropWhile_cons_of_neg hc]
      have := read_after .skip [] c cs (by rw [after_nil]; simp [step, hc])
      rw [this, put_nil]

/-- `\u{…}`: what the digits do -/
theorem read_uni (ds : List (Char × Nat)) (hd : ∀ d ∈ ds, d ∈ hexDigits) (s : Str) : ∀ (v : Nat),
    v ≤ 0x10FFFF →
    read (.uni v) (ds.map Prod.fst ++ '}' :: s) =
      if ds.foldl (fun v d => v * 16 + d.2) v ≤ 0x10FFFF then
        put (utf8Esc (ds.foldl (fun v d => v * 16 + d.2) v)) (read .text s) else none := by
  have mono : ∀ (ds : List (Char × Nat)) v, v ≤ ds.foldl (fun v d => v * 16 + d.2) v := by
    intro ds
    induction ds with
    | nil => intro v; exact Nat.le_refl v
    | cons d ds ih => intro v; exact Nat.le_trans (by omega : v ≤ v * 16 + d.2) (ih _)
  induction ds with
  | nil =>
    intro v hv
    show read (.uni v) ('}' :: s) = _
    rw [read_cons, List.foldl_nil, if_pos hv]
    have : step (.uni v) '}' = .go .text (utf8Esc v) := rfl
    rw [this]
    rfl
  | cons d ds ih =>
    intro v hv
    show read (.uni v) (d.1 :: (ds.map Prod.fst ++ '}' :: s)) = _
    rw [read_cons]
    have hx : hexValue d.1 = some d.2 := (hexValue_iff _ _).2 (hd d List.mem_cons_self)
    rw [List.foldl_cons]
    by_cases hle : v * 16 + d.2 ≤ 0x10FFFF
    · have : step (.uni v) d.1 = .go (.uni (v * 16 + d.2)) [] := by simp [step, hx, hle]
      rw [this]
      dsimp only
      rw [ih (fun x hx => hd x (List.mem_cons_of_mem _ hx)) _ hle]
      exact put_nil _
    · have : step (.uni v) d.1 = .fail := by simp [step, hx, hle]
      rw [this]
      dsimp only
      rw [if_neg]
      have := mono ds (v * 16 + d.2)
      omega

/-- what `\u{…}` must look like -/
theorem read_uni_inv (cs : Str) : ∀ {v : Nat} {r : Bytes × Str}, read (.uni v) cs = some r →
    ∃ ds s, cs = List.map Prod.fst ds ++ '}' :: s ∧ ∀ d ∈ ds, d ∈ hexDigits := by
  induction cs with
  | nil => intro v r h; cases h
  | cons c cs ih =>
    intro v r h
    rw [read_cons] at h
    cases hx : hexValue c with
    | some d =>
      by_cases hle : v * 16 + d ≤ 0x10FFFF
      · have : step (.uni v) c = .go (.uni (v * 16 + d)) [] := by simp [step, hx, hle]
        rw [this] at h
        dsimp only at h
        cases hr : read (.uni (v * 16 + d)) cs with
        | none => rw [hr] at h; cases h
        | some r' =>
          obtain ⟨ds, s, e, hd⟩ := ih hr
          refine ⟨(c, d) :: ds, s, by rw [e]; rfl, ?_⟩
          intro x hxm
          rcases List.mem_cons.1 hxm with rfl | hxm
          · exact (hexValue_iff c d).1 hx
          · exact hd x hxm
      · have : step (.uni v) c = .fail := by simp [step, hx, hle]
        rw [this] at h
        cases h
    | none =>
      by_cases hc : c = '}'
      · subst hc; exact ⟨[], cs, rfl, by simp⟩
      · have : step (.uni v) c = .fail := by simp [step, hx, hc]
        rw [this] at h
        cases h

/-- `\ddd`: what the digits do -/
theorem read_dec (ds : List (Char × Nat)) (hd : ∀ d ∈ ds, d ∈ decDigits) (s : Str) : ∀ (v n : Nat),
    ds.length + n ≤ 2 → (ds.length + n = 2 ∨ ∀ c, s.head? = some c → c ∉ decDigits.map Prod.fst) → s ≠ [] →
    read (.dec v n) (ds.map Prod.fst ++ s) =
      if ds.foldl (fun v d => v * 10 + d.2) v ≤ 255 then
        put [UInt8.ofNat (ds.foldl (fun v d => v * 10 + d.2) v)] (read .text s) else none := by
  induction ds with
  | nil =>
    intro v n hn hm hs
    obtain ⟨c, cs, rfl⟩ := List.exists_cons_of_ne_nil hs
    show read (.dec v n) (c :: cs) = _
    rw [List.foldl_nil]
    have hnone : (if n < 2 then decValue c else none) = none := by
      split
      · rcases hm with h | h
        · simp at h; omega
        · exact (decValue_none c).2 (h c rfl)
      · rfl
    by_cases hv : v ≤ 255
    · rw [if_pos hv]
      exact read_after _ _ c cs (by simp [step, hnone, hv])
    · rw [if_neg hv, read_cons]
      have : step (.dec v n) c = .fail := by simp [step, hnone, hv]
      rw [this]
  | cons d ds ih =>
    intro v n hn hm hs
    rw [List.length_cons] at hn hm
    show read (.dec v n) (d.1 :: (ds.map Prod.fst ++ s)) = _
    rw [read_cons]
    have hx : decValue d.1 = some d.2 := (decValue_iff _ _).2 (hd d List.mem_cons_self)
    have : step (.dec v n) d.1 = .go (.dec (v * 10 + d.2) (n + 1)) [] := by
      simp [step, hx, show n < 2 by omega]
    rw [this]
    dsimp only
    rw [ih (fun x hx => hd x (List.mem_cons_of_mem _ hx)) _ _ (by omega) (by rcases hm with h | h; exact .inl (by omega); exact .inr h) hs,
      List.foldl_cons]
    exact put_nil _

/-- as many digits as there are, at most two more -/
theorem more_digits (n : Nat) : ∀ cs : Str, ∃ ds s, cs = List.map Prod.fst ds ++ s ∧ (∀ d ∈ ds, d ∈ decDigits) ∧
    ds.length ≤ n ∧ (ds.length = n ∨ ∀ c, s.head? = some c → c ∉ decDigits.map Prod.fst) := by
  induction n with
  | zero => intro cs; exact ⟨[], cs, rfl, by simp, Nat.le_refl _, .inl rfl⟩
  | succ n ih =>
    intro cs
    cases cs with
    | nil => exact ⟨[], [], rfl, by simp, by simp, .inr (by simp)⟩
    | cons c cs =>
      cases hx : decValue c with
      | none =>
        refine ⟨[], c :: cs, rfl, by simp, by simp, .inr ?_⟩
        intro e he
        cases he
        exact (decValue_none c).1 hx
      | some d =>
        obtain ⟨ds, s, e, hd, hl, hm⟩ := ih cs
        refine ⟨(c, d) :: ds, s, by rw [e]; rfl, ?_, by simp; omega, ?_⟩
        · intro x hxm
          rcases List.mem_cons.1 hxm with rfl | hxm
          · exact (decValue_iff c d).1 hx
          · exact hd x hxm
        · rcases hm with h | h
          · exact .inl (by simp [h])
          · exact .inr h

theorem read_eol {c : Char} (hc : c = '\n' ∨ c = '\r') (s : Str) (hs : s ≠ []) :
    read (.eol c) s =
      match s with
      | d :: s' => if (d = '\n' ∨ d = '\r') ∧ d ≠ c then read .text s' else read .text s
      | [] => none := by
  obtain ⟨d, s, rfl⟩ := List.exists_cons_of_ne_nil hs
  dsimp only
  by_cases hd : (d = '\n' ∨ d = '\r') ∧ d ≠ c
  · rw [if_pos hd, read_cons]
    have : step (.eol c) d = .go .text [] := by simp only [step]; rw [if_pos hd]
    rw [this]
    exact put_nil _
  · rw [if_neg hd]
    have := read_after (.eol c) [] d s (by rw [after_nil]; simp only [step]; rw [if_neg hd])
    rw [this, put_nil]

theorem plain_iff (c : Char) : c ∉ ['"', '\\', '\n', '\r'] ↔ PlainChar c := by
  simp [PlainChar]

theorem read_escape {c : Char} {s : Str} {st : LuaLex} {b : Bytes} (h : escapeStep c = .go st b) :
    read .text ('\\' :: c :: s) = put b (read st s) := by
  rw [read_cons, show step .text '\\' = .go .escape [] from rfl]
  dsimp only
  rw [read_cons, show step .escape c = _ from h]
  dsimp only
  exact put_nil _

/-- A body is read as the manual says, whatever follows its closing quote. -/
theorem read_body {s : Str} {v : Bytes} (h : LuaBody s v) (rest : Str) : read .text (s ++ '"' :: rest) = some (v, rest) := by
  have quote : ∀ (s : Str) (P : Char → Prop), (∀ c, s.head? = some c → P c) → P '"' →
      ∀ c, (s ++ '"' :: rest).head? = some c → P c := by
    intro s P h1 h2 c hc
    cases s with
    | nil => cases hc; exact h2
    | cons d s => exact h1 c hc
  induction h with
  | nil => rfl
  | char hc h ih =>
    show read .text (_ :: (_ ++ _)) = _
    rw [read_cons, show step .text _ = _ from textStep_plain ((plain_iff _).1 hc)]
    dsimp only
    rw [ih]
    rfl
  | letter hc h ih =>
    show read .text ('\\' :: _ :: (_ ++ _)) = _
    rw [read_escape (st := .text) (b := [_]) (by unfold escapeStep; rw [(letter_iff _ _).2 hc]), ih]
    rfl
  | @hex a b s v ha hb h ih =>
    show read .text ('\\' :: 'x' :: a.1 :: b.1 :: (s ++ '"' :: rest)) = _
    rw [read_escape (st := .hex none) (b := []) rfl, put_nil, read_cons]
    have h1 : step (.hex none) a.1 = .go (.hex (some a.2)) [] := by
      simp [step, (hexValue_iff a.1 a.2).2 ha]
    rw [h1]
    dsimp only
    rw [read_cons]
    have h2 : step (.hex (some a.2)) b.1 = .go .text [UInt8.ofNat (a.2 * 16 + b.2)] := by
      simp [step, (hexValue_iff b.1 b.2).2 hb]
    rw [h2]
    dsimp only
    rw [ih]
    simp [numeral]
  | @dec ds s v hd h1 h3 hm hv h ih =>
    match ds, h1 with
    | d :: ds, _ =>
      rw [List.length_cons] at h3 hm
      show read .text ('\\' :: d.1 :: (ds.map Prod.fst ++ s ++ '"' :: rest)) = _
      have hx := (decValue_iff d.1 d.2).2 (hd d List.mem_cons_self)
      have hstep : escapeStep d.1 = .go (.dec d.2 0) [] := by
        have := hd d List.mem_cons_self
        obtain ⟨c, n⟩ := d
        have e : decDigits = [('0', 0), ('1', 1), ('2', 2), ('3', 3), ('4', 4), ('5', 5), ('6', 6), ('7', 7), ('8', 8), ('9', 9)] := rfl
        rw [e] at this
        simp only [List.mem_cons, List.not_mem_nil, or_false, Prod.mk.injEq] at this
        rcases this with ⟨rfl, rfl⟩ | ⟨rfl, rfl⟩ | ⟨rfl, rfl⟩ | ⟨rfl, rfl⟩ | ⟨rfl, rfl⟩ | ⟨rfl, rfl⟩ | ⟨rfl, rfl⟩ | ⟨rfl, rfl⟩ |
          ⟨rfl, rfl⟩ | ⟨rfl, rfl⟩ <;> rfl
      rw [read_escape hstep, put_nil, List.append_assoc]
      rw [read_dec ds (fun x hx => hd x (List.mem_cons_of_mem _ hx)) (s ++ '"' :: rest) d.2 0 (by omega)
        (by
          rcases hm with h | h
          · exact .inl (by omega)
          · exact .inr (quote s _ h (by decide))) (by simp)]
      have e : ds.foldl (fun v d => v * 10 + d.2) d.2 = numeral 10 (d :: ds) := by simp [numeral]
      rw [e, if_pos hv, ih]
      rfl
  | @skip ws s v hw hm h ih =>
    show read .text ('\\' :: 'z' :: (ws ++ s ++ '"' :: rest)) = _
    rw [read_escape (st := .skip) (b := []) rfl, put_nil, read_skip]
    have : (ws ++ s ++ '"' :: rest).dropWhile isSpace = s ++ '"' :: rest := by
      rw [List.append_assoc, List.dropWhile_append_of_pos fun c hc => (isSpace_iff c).2 (hw c hc)]
      have hq := quote s _ hm (by decide : '"' ∉ luaSpaces)
      cases s with
      | nil => rfl
      | cons c s =>
        refine List.dropWhile_cons_of_neg ?_
        rw [isSpace_iff]
        exact hm c rfl
    rw [this, ih]
  | @uni ds s v hd h1 hv h ih =>
    match ds, h1 with
    | d :: ds, _ =>
      show read .text ('\\' :: 'u' :: '{' :: d.1 :: (ds.map Prod.fst ++ '}' :: s ++ '"' :: rest)) = _
      rw [read_escape (st := .brace) (b := []) rfl, put_nil, read_cons, show step .brace '{' = .go .uniStart [] from rfl]
      dsimp only
      rw [read_cons]
      have hx := (hexValue_iff d.1 d.2).2 (hd d List.mem_cons_self)
      have : step .uniStart d.1 = .go (.uni d.2) [] := by simp [step, hx]
      rw [this]
      dsimp only
      have e : ds.foldl (fun v d => v * 16 + d.2) d.2 = numeral 16 (d :: ds) := by simp [numeral]
      have hsmall : d.2 ≤ 0x10FFFF := by
        have : ∀ x ∈ hexDigits, x.2 ≤ 0x10FFFF := by decide
        exact this d (hd d List.mem_cons_self)
      rw [show ds.map Prod.fst ++ '}' :: s ++ '"' :: rest = ds.map Prod.fst ++ '}' :: (s ++ '"' :: rest) by simp,
        read_uni ds (fun x hx => hd x (List.mem_cons_of_mem _ hx)) _ _ hsmall, e, if_pos hv, ih, utf8Esc_eq hv]
      rfl
  | @line c s v hc hm h ih =>
    show read .text ('\\' :: c :: (s ++ '"' :: rest)) = _
    have hstep : escapeStep c = .go (.eol c) [10] := by rcases hc with rfl | rfl <;> rfl
    rw [read_escape hstep, read_eol hc _ (by simp)]
    cases s with
    | nil =>
      show put [10] (if ('"' = '\n' ∨ '"' = '\r') ∧ '"' ≠ c then _ else read .text ('"' :: rest)) = _
      rw [if_neg (by simp)]
      have := ih
      rw [show read .text ('"' :: rest) = some (v, rest) from this]
      rfl
    | cons d s =>
      show put [10] (if (d = '\n' ∨ d = '\r') ∧ d ≠ c then _ else read .text (d :: s ++ '"' :: rest)) = _
      rw [if_neg (fun hx => hx.2 (hm d rfl hx.1)), ih]
      rfl
  | @line2 c d s v hc h ih =>
    show read .text ('\\' :: c :: d :: (s ++ '"' :: rest)) = _
    have hstep : escapeStep c = .go (.eol c) [10] := by rcases hc with ⟨rfl, _⟩ | ⟨rfl, _⟩ <;> rfl
    rw [read_escape hstep, read_eol (by rcases hc with ⟨rfl, _⟩ | ⟨rfl, _⟩ <;> simp) _ (by simp)]
    dsimp only
    rw [if_pos (by rcases hc with ⟨rfl, rfl⟩ | ⟨rfl, rfl⟩ <;> simp), ih]
    rfl

theorem put_some {b : Bytes} {r : Option (Bytes × Str)} {v : Bytes} {rest : Str} (h : put b r = some (v, rest)) :
    ∃ v', r = some (v', rest) ∧ v = b ++ v' := by
  cases r with
  | none => cases h
  | some x =>
    obtain ⟨v', r'⟩ := x
    simp only [put, Option.map_some, Option.some.injEq, Prod.mk.injEq] at h
    exact ⟨v', by rw [h.2], h.1.symm⟩

/-- What is read is the body of a literal. -/
theorem read_body_inv (n : Nat) : ∀ {t : Str} {v : Bytes} {rest : Str}, t.length ≤ n → read .text t = some (v, rest) →
    ∃ body, t = body ++ '"' :: rest ∧ LuaBody body v := by
  induction n with
  | zero =>
    intro t v rest hl h
    have : t = [] := List.length_eq_zero_iff.1 (by omega)
    subst this
    cases h
  | succ n ih =>
    intro t v rest hl h
    cases t with
    | nil => cases h
    | cons c cs =>
      rw [List.length_cons] at hl
      rcases textStep_cases c with ⟨rfl, hc⟩ | ⟨rfl, hc⟩ | hc | ⟨hpl, hc⟩
      · rw [read_cons, show step .text _ = _ from hc] at h
        cases h
        exact ⟨[], rfl, .nil⟩
      · cases cs with
        | nil => cases h
        | cons c cs =>
          rw [List.length_cons] at hl
          cases hlt : letter c with
          | some b =>
            rw [read_escape (st := .text) (b := [b]) (by unfold escapeStep; rw [hlt])] at h
            obtain ⟨v', h', rfl⟩ := put_some h
            obtain ⟨body, rfl, hb⟩ := ih (by omega) h'
            exact ⟨'\\' :: c :: body, rfl, .letter ((letter_iff c b).1 hlt) hb⟩
          | none =>
            by_cases hx : c = 'x'
            · subst hx
              rw [read_escape (st := .hex none) (b := []) rfl, put_nil] at h
              cases cs with
              | nil => cases h
              | cons a cs =>
                rw [read_cons] at h
                cases ha : hexValue a with
                | none =>
                  rw [show step (.hex none) a = .fail by simp [step, ha]] at h
                  cases h
                | some x =>
                  rw [show step (.hex none) a = .go (.hex (some x)) [] by simp [step, ha]] at h
                  have h := (put_nil _).symm.trans h
                  cases cs with
                  | nil => cases h
                  | cons b cs =>
                    rw [read_cons] at h
                    cases hb : hexValue b with
                    | none =>
                      rw [show step (.hex (some x)) b = .fail by simp [step, hb]] at h
                      cases h
                    | some y =>
                      rw [show step (.hex (some x)) b = .go .text [UInt8.ofNat (x * 16 + y)] by simp [step, hb]] at h
                      obtain ⟨v', h', rfl⟩ := put_some h
                      simp only [List.length_cons] at hl
                      obtain ⟨body, rfl, hbd⟩ := ih (by omega) h'
                      refine ⟨'\\' :: 'x' :: a :: b :: body, rfl, ?_⟩
                      have := LuaBody.hex (a := (a, x)) (b := (b, y)) ((hexValue_iff a x).1 ha) ((hexValue_iff b y).1 hb) hbd
                      simpa [numeral] using this
            by_cases hu : c = 'u'
            · subst hu
              rw [read_escape (st := .brace) (b := []) rfl, put_nil] at h
              cases cs with
              | nil => cases h
              | cons a cs =>
                rw [read_cons] at h
                by_cases ha : a = '{'
                · subst ha
                  rw [show step .brace '{' = .go .uniStart [] from rfl] at h
                  have h := (put_nil _).symm.trans h
                  cases cs with
                  | nil => cases h
                  | cons b cs =>
                    rw [read_cons] at h
                    cases hb : hexValue b with
                    | none => rw [show step .uniStart b = .fail by simp [step, hb]] at h; cases h
                    | some y =>
                      rw [show step .uniStart b = .go (.uni y) [] by simp [step, hb]] at h
                      have h := (put_nil _).symm.trans h
                      obtain ⟨ds, s, rfl, hd⟩ := read_uni_inv cs h
                      have hm := (hexValue_iff b y).1 hb
                      have hsmall : y ≤ 0x10FFFF := by
                        have : ∀ x ∈ hexDigits, x.2 ≤ 0x10FFFF := by decide
                        exact this _ hm
                      rw [read_uni ds hd s y hsmall] at h
                      split at h
                      · rename_i hv
                        rw [utf8Esc_eq hv] at h
                        obtain ⟨v', h', rfl⟩ := put_some h
                        simp only [List.length_cons, List.length_append] at hl
                        obtain ⟨body, rfl, hbd⟩ := ih (by omega) h'
                        refine ⟨'\\' :: 'u' :: '{' :: ((b, y) :: ds).map Prod.fst ++ '}' :: body, by simp, ?_⟩
                        have e : ds.foldl (fun v d => v * 16 + d.2) y = numeral 16 ((b, y) :: ds) := by simp [numeral]
                        rw [e] at hv ⊢
                        refine .uni ?_ (by simp) hv hbd
                        intro x hx
                        rcases List.mem_cons.1 hx with rfl | hx
                        · exact hm
                        · exact hd x hx
                      · cases h
                · rw [show step .brace a = .fail by simp [step, ha]] at h
                  cases h
            by_cases hz : c = 'z'
            · subst hz
              rw [read_escape (st := .skip) (b := []) rfl, put_nil, read_skip] at h
              have hlen : (cs.dropWhile isSpace).length ≤ n := by
                have := (List.dropWhile_suffix isSpace (l := cs)).length_le; omega
              obtain ⟨body, hb, hbd⟩ := ih hlen h
              refine ⟨'\\' :: 'z' :: cs.takeWhile isSpace ++ body, ?_, ?_⟩
              · have := (List.takeWhile_append_dropWhile (p := isSpace) (l := cs)).symm
                rw [hb] at this
                show '\\' :: 'z' :: cs = '\\' :: 'z' :: (cs.takeWhile isSpace ++ body) ++ '"' :: rest
                rw [List.cons_append, List.cons_append, List.append_assoc]
                exact congrArg (fun x => '\\' :: 'z' :: x) this
              · refine .skip ?_ ?_ hbd
                · intro c hc
                  have := List.all_takeWhile (p := isSpace) (l := cs)
                  exact (isSpace_iff c).1 (List.all_eq_true.1 this c hc)
                · intro c hc hm
                  have hd : (cs.dropWhile isSpace).head? = some c := by
                    rw [hb]
                    cases body with
                    | nil => cases hc
                    | cons d body => exact hc
                  have := List.head?_dropWhile_not isSpace cs
                  rw [hd] at this
                  change isSpace c = false at this
                  rw [(isSpace_iff c).2 hm] at this
                  cases this
            by_cases hnl : c = '\n' ∨ c = '\r'
            · have hstep : escapeStep c = .go (.eol c) [10] := by rcases hnl with rfl | rfl <;> rfl
              rw [read_escape hstep] at h
              obtain ⟨v', h', rfl⟩ := put_some h
              cases cs with
              | nil => cases h'
              | cons d cs =>
                rw [read_eol hnl _ (by simp)] at h'
                dsimp only at h'
                simp only [List.length_cons] at hl
                by_cases hd : (d = '\n' ∨ d = '\r') ∧ d ≠ c
                · rw [if_pos hd] at h'
                  obtain ⟨body, rfl, hbd⟩ := ih (by omega) h'
                  refine ⟨'\\' :: c :: d :: body, rfl, .line2 ?_ hbd⟩
                  obtain ⟨hd1, hd2⟩ := hd
                  rcases hnl with rfl | rfl <;> rcases hd1 with rfl | rfl
                  · exact absurd rfl hd2
                  · exact .inl ⟨rfl, rfl⟩
                  · exact .inr ⟨rfl, rfl⟩
                  · exact absurd rfl hd2
                · rw [if_neg hd] at h'
                  obtain ⟨body, hb, hbd⟩ := ih (by simp; omega) h'
                  refine ⟨'\\' :: c :: body, by rw [hb]; rfl, .line hnl ?_ hbd⟩
                  intro e he hee
                  cases body with
                  | nil => cases he
                  | cons f body =>
                    cases he
                    have hb : d :: cs = e :: (body ++ '"' :: rest) := hb
                    injection hb with hb1 _
                    subst hb1
                    by_cases heq : d = c
                    · exact heq
                    · exact absurd ⟨hee, heq⟩ hd
            · cases hdv : decValue c with
              | none =>
                rw [read_cons, show step .text '\\' = .go .escape [] from rfl] at h
                have h := (put_nil _).symm.trans h
                rw [read_cons, show step .escape c = .fail by
                  show escapeStep c = .fail
                  unfold escapeStep
                  rw [hlt]
                  dsimp only
                  rw [if_neg hx, if_neg hu, if_neg hz, if_neg hnl, hdv]] at h
                cases h
              | some d =>
                have hstep : escapeStep c = .go (.dec d 0) [] := by
                  unfold escapeStep
                  rw [hlt]
                  dsimp only
                  rw [if_neg hx, if_neg hu, if_neg hz, if_neg hnl, hdv]
                rw [read_escape hstep, put_nil] at h
                obtain ⟨ds, s, rfl, hd, hdl, hm⟩ := more_digits 2 cs
                have hs : s ≠ [] := by
                  rintro rfl
                  have : ∀ (cs : Str) v n, (∀ c ∈ cs, ∃ d, decValue c = some d) → cs.length + n ≤ 2 → read (.dec v n) cs = none := by
                    intro cs
                    induction cs with
                    | nil => intro v n _ _; rfl
                    | cons c cs ih =>
                      intro v n hh hn
                      obtain ⟨d, hd⟩ := hh c List.mem_cons_self
                      rw [List.length_cons] at hn
                      rw [read_cons, show step (.dec v n) c = .go (.dec (v * 10 + d) (n + 1)) [] by
                        simp [step, hd, show n < 2 by omega]]
                      dsimp only
                      rw [ih _ _ (fun c hc => hh c (List.mem_cons_of_mem _ hc)) (by omega)]
                      rfl
                  rw [List.append_nil] at h
                  rw [this _ d 0 (by
                    intro c hc
                    obtain ⟨x, hx, rfl⟩ := List.mem_map.1 hc
                    exact ⟨x.2, (decValue_iff _ _).2 (hd x hx)⟩) (by simpa using hdl)] at h
                  cases h
                rw [read_dec ds hd s d 0 (by omega) (by rcases hm with h | h; exact .inl (by omega); exact .inr h) hs] at h
                split at h
                · rename_i hv
                  obtain ⟨v', h', rfl⟩ := put_some h
                  simp only [List.length_append] at hl
                  obtain ⟨body, rfl, hbd⟩ := ih (by omega) h'
                  refine ⟨'\\' :: ((c, d) :: ds).map Prod.fst ++ body, by simp, ?_⟩
                  have e : ds.foldl (fun v d => v * 10 + d.2) d = numeral 10 ((c, d) :: ds) := by simp [numeral]
                  rw [e] at hv ⊢
                  refine .dec ?_ (by simp) (by simpa using hdl) ?_ hv hbd
                  · intro x hx
                    rcases List.mem_cons.1 hx with rfl | hx
                    · exact (decValue_iff c d).1 hdv
                    · exact hd x hx
                  · rcases hm with hm | hm
                    · exact .inl (by simp [hm])
                    · right
                      intro e he
                      refine hm e ?_
                      cases body with
                      | nil => cases he
                      | cons f body => exact he
                · cases h
      · rw [read_cons, show step .text _ = _ from hc] at h
        cases h
      · rw [read_cons, show step .text _ = _ from hc] at h
        obtain ⟨v', h', rfl⟩ := put_some h
        obtain ⟨body, rfl, hb⟩ := ih (by omega) h'
        exact ⟨c :: body, rfl, .char ((plain_iff c).2 hpl) hb⟩

/-- The reader reads the literals of Lua. -/
theorem read_iff (t : Str) (v : Bytes) (rest : Str) :
    read .text t = some (v, rest) ↔ ∃ body, t = body ++ '"' :: rest ∧ LuaBody body v :=
  ⟨fun h => read_body_inv t.length (Nat.le_refl _) h, fun ⟨_, e, h⟩ => by rw [e]; exact read_body h rest⟩

/-- A body has one value. -/
theorem body_unique {s : Str} {v v' : Bytes} (h : LuaBody s v) (h' : LuaBody s v') : v = v' := by
  have h1 := read_body h []
  rw [read_body h' []] at h1
  cases h1
  rfl

end Ced.LuaLex

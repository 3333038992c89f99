import Verif.Spec.Reader
import Verif.Proofs.Chars
import Verif.Proofs.Assoc

/-! Auxiliary lemmas: decoding, and lines of bytes. -/

namespace Ced
open Spec

/-! ## `String::from_utf8` -/

theorem char_ofNat_val (c : Char) : Char.ofNat c.val.toNat = c := by
  have := Char.ofNat_toNat c
  exact this

theorem codePoint_encode (c : Char) : Char.ofNat (codePoint (String.utf8EncodeChar c)) = c := by
  have hv : c.val.toNat < 0xD800 ∨ (0xDFFF < c.val.toNat ∧ c.val.toNat < 0x110000) := by
    have := c.valid
    simpa [UInt32.isValidChar, Nat.isValidChar] using this
  have h : codePoint (String.utf8EncodeChar c) = c.val.toNat := by
    unfold String.utf8EncodeChar
    simp only
    generalize c.val.toNat = v at hv
    split
    · simp only [codePoint, UInt8.toNat_ofNat']; omega
    · split
      · simp only [codePoint, UInt8.toNat_ofNat']; omega
      · split
        · simp only [codePoint, UInt8.toNat_ofNat']; omega
        · simp only [codePoint, UInt8.toNat_ofNat']; omega
  rw [h]; exact char_ofNat_val c

/-- Encoding a code point that is the value of a character. -/
theorem encode_ofNat {v : Nat} (hv : v < 0xD800 ∨ (0xDFFF < v ∧ v < 0x110000)) : (Char.ofNat v).val.toNat = v := by
  have h : v.isValidChar := by
    unfold Nat.isValidChar; omega
  unfold Char.ofNat
  rw [dif_pos h]
  simp only [Char.ofNatAux]
  exact UInt32.toNat_ofNatLT ..

theorem u8_eq {a : UInt8} {n : Nat} (h : a.toNat = n) : UInt8.ofNat n = a := by
  rw [← h]; simp

/-- A well-formed head is the encoding of its code point. -/
theorem head_encode {s : Bytes} {n : Nat} (hne : s ≠ []) (h : utf8Head s = (true, n)) :
    0 < n ∧ n ≤ s.length ∧ String.utf8EncodeChar (Char.ofNat (codePoint (s.take n))) = s.take n := by
  obtain ⟨b, rest, rfl⟩ := List.exists_cons_of_ne_nil hne
  unfold utf8Head at h
  simp only at h
  have hb := b.toNat_lt
  split at h
  · cases h
    refine ⟨by omega, by simp, ?_⟩
    simp only [List.take_succ_cons, List.take_zero, codePoint]
    unfold String.utf8EncodeChar
    simp only
    rw [encode_ofNat (by omega), if_pos (by omega), u8_eq rfl]
  split at h
  · split at h
    · rename_i _ h1 h2
      cases h
      cases rest with
      | nil => simp [isCont] at h2
      | cons b1 rest =>
        simp only [List.getElem?_cons_zero, Option.getD_some, isCont, Bool.and_eq_true, decide_eq_true_eq] at h2
        refine ⟨by omega, by simp, ?_⟩
        simp only [List.take_succ_cons, List.take_zero, codePoint]
        unfold String.utf8EncodeChar
        simp only
        rw [encode_ofNat (by omega), if_neg (by omega), if_pos (by omega), u8_eq (a := b) (by omega),
          u8_eq (a := b1) (by omega)]
    · cases h
  split at h
  · split at h
    · split at h
      · rename_i _ _ h1 h2 h3
        cases h
        cases rest with
        | nil => simp [isCont] at h3
        | cons b1 rest =>
          cases rest with
          | nil => simp [isCont] at h3
          | cons b2 rest =>
            simp only [List.getElem?_cons_zero, List.getElem?_cons_succ, Option.getD_some, isCont, Bool.and_eq_true,
              decide_eq_true_eq] at h2 h3
            have hb1 := b1.toNat_lt
            refine ⟨by omega, by simp, ?_⟩
            simp only [List.take_succ_cons, List.take_zero, codePoint]
            unfold String.utf8EncodeChar
            simp only
            rw [encode_ofNat (by omega), if_neg (by omega), if_neg (by omega), if_pos (by omega),
              u8_eq (a := b) (by omega), u8_eq (a := b1) (by omega), u8_eq (a := b2) (by omega)]
      · cases h
    · cases h
  split at h
  · split at h
    · split at h
      · split at h
        · rename_i _ _ _ h1 h2 h3 h4
          cases h
          cases rest with
          | nil => simp [isCont] at h3
          | cons b1 rest =>
            cases rest with
            | nil => simp [isCont] at h3
            | cons b2 rest =>
              cases rest with
              | nil => simp [isCont] at h4
              | cons b3 rest =>
                simp only [List.getElem?_cons_zero, List.getElem?_cons_succ, Option.getD_some, isCont,
                  Bool.and_eq_true, decide_eq_true_eq] at h2 h3 h4
                have hb1 := b1.toNat_lt
                refine ⟨by omega, by simp, ?_⟩
                simp only [List.take_succ_cons, List.take_zero, codePoint]
                unfold String.utf8EncodeChar
                simp only
                rw [encode_ofNat (by omega), if_neg (by omega), if_neg (by omega), if_neg (by omega),
                  u8_eq (a := b) (by omega), u8_eq (a := b1) (by omega), u8_eq (a := b2) (by omega),
                  u8_eq (a := b3) (by omega)]
        · cases h
      · cases h
    · cases h
  · cases h

theorem fromUtf8Aux_encode (cs : List Char) (fuel : Nat) (h : (encode cs).length ≤ fuel) :
    fromUtf8Aux fuel (encode cs) = some cs := by
  induction cs generalizing fuel with
  | nil => cases fuel <;> simp [encode, fromUtf8Aux]
  | cons c cs ih =>
    have hpos := encodeChar_pos c
    rw [encode_cons] at h ⊢
    rw [List.length_append] at h
    have hh := utf8Head_encode c (encode cs)
    obtain ⟨b, bs, hb⟩ : ∃ b bs, String.utf8EncodeChar c ++ encode cs = b :: bs := by
      cases hcc : String.utf8EncodeChar c with
      | nil => rw [hcc] at hpos; simp at hpos
      | cons b bs => exact ⟨b, bs ++ encode cs, rfl⟩
    cases fuel with
    | zero => omega
    | succ fuel =>
      rw [hb, fromUtf8Aux, ← hb, hh]
      simp only [if_true, List.take_left, List.drop_left]
      rw [ih fuel (by omega), codePoint_encode]
      rfl

theorem fromUtf8Aux_inv {fuel : Nat} {s : Bytes} {cs : Str} (h : fromUtf8Aux fuel s = some cs) : s = encode cs := by
  induction fuel generalizing s cs with
  | zero =>
    cases s with
    | nil => cases h; rfl
    | cons b s => cases h
  | succ fuel ih =>
    cases s with
    | nil => cases h; rfl
    | cons b s =>
      rw [fromUtf8Aux] at h
      split at h
      · rename_i hh
        obtain ⟨ds, hd, rfl⟩ := Option.map_eq_some_iff.1 h
        obtain ⟨_, _, h3⟩ := head_encode (s := b :: s) (n := (utf8Head (b :: s)).2) (by simp) (by rw [← hh])
        rw [encode_cons, h3, ← ih hd, List.take_append_drop]
      · cases h

/-- The bytes are decoded exactly when they are the encoding of a text, and then to it. -/
theorem fromUtf8_iff {s : Bytes} {cs : Str} : fromUtf8 s = some cs ↔ s = encode cs :=
  ⟨fromUtf8Aux_inv, fun h => by rw [h]; exact fromUtf8Aux_encode cs _ (Nat.le_refl _)⟩

theorem fromUtf8_none {s : Bytes} : fromUtf8 s = none ↔ ¬ IsText s := by
  constructor
  · rintro h ⟨cs, hc⟩
    rw [fromUtf8_iff.2 hc] at h; cases h
  · intro h
    cases hc : fromUtf8 s with
    | none => rfl
    | some cs => exact absurd ⟨cs, fromUtf8_iff.1 hc⟩ h

theorem encode_inj {a b : Str} (h : encode a = encode b) : a = b := by
  have h1 := fromUtf8_iff.2 (rfl : encode a = encode a)
  rw [h, fromUtf8_iff.2 rfl] at h1
  exact (Option.some.inj h1).symm

theorem encode_append (a b : Str) : encode (a ++ b) = encode a ++ encode b := by simp [encode]

/-! ## The text of a line -/

theorem encode_newline : encode ['\n'] = [10] := by decide

theorem newline_mem {cs : Str} : (10 : UInt8) ∈ encode cs ↔ '\n' ∈ cs := by
  constructor
  · intro h
    obtain ⟨c, hc, h⟩ := List.mem_flatMap.1 h
    have : c = '\n' := by
      have hv : c.val.toNat < 0xD800 ∨ (0xDFFF < c.val.toNat ∧ c.val.toNat < 0x110000) := by
        have := c.valid
        simpa [UInt32.isValidChar, Nat.isValidChar] using this
      have h10 : c.val.toNat = 10 := by
        have key : ∀ n : Nat, n < 256 → (10 : UInt8) = UInt8.ofNat n → n = 10 := by
          intro n hn he
          have := congrArg UInt8.toNat he
          simp [UInt8.toNat_ofNat'] at this
          omega
        unfold String.utf8EncodeChar at h
        simp only at h
        generalize c.val.toNat = v at hv h
        split at h
        · simp only [List.mem_cons, List.not_mem_nil, or_false] at h
          have := key _ (by omega) h; omega
        · split at h
          · simp only [List.mem_cons, List.not_mem_nil, or_false] at h
            rcases h with h | h <;> have := key _ (by omega) h <;> omega
          · split at h
            · simp only [List.mem_cons, List.not_mem_nil, or_false] at h
              rcases h with h | h | h <;> have := key _ (by omega) h <;> omega
            · simp only [List.mem_cons, List.not_mem_nil, or_false] at h
              rcases h with h | h | h | h <;> have := key _ (by omega) h <;> omega
      rw [← char_ofNat_val c, h10]
    rw [← this]; exact hc
  · intro h
    exact List.mem_flatMap.2 ⟨'\n', h, by decide⟩

theorem isText_line {raw : Bytes} : IsText (raw ++ [10]) ↔ IsText raw := by
  constructor
  · intro h
    have hb : isCharBoundary (raw ++ [10]) raw.length = true := by
      unfold isCharBoundary
      simp [isCont]
    have := (isCharBoundary_iff h (by simp)).1 hb
    have h1 := this.1
    rwa [List.take_left'] at h1; rfl
  · intro h
    exact isText_append h ⟨['\n'], by decide⟩

theorem chomp_line (cs : Str) : chomp (cs ++ ['\n']) = if cs.getLast? = some '\r' then cs.dropLast else cs := by
  unfold chomp
  simp

theorem lineText_chomp (cs : Str) : LineText (encode cs) (chomp (cs ++ ['\n'])) := by
  rw [chomp_line]
  split
  · rename_i h
    left
    obtain ⟨ds, rfl⟩ := List.getLast?_eq_some_iff.1 h
    rw [List.dropLast_concat]
  · rename_i h
    right
    refine ⟨rfl, fun t ht => h ?_⟩
    rw [ht]; simp

/-- A line completed by a newline. -/
theorem lineItem_line (raw : Bytes) :
    (∃ t, lineItem (raw ++ [10]) = some t ∧ LineText raw t) ∨ (lineItem (raw ++ [10]) = none ∧ ¬ IsText raw) := by
  unfold lineItem
  cases h : fromUtf8 (raw ++ [10]) with
  | none =>
    right
    exact ⟨rfl, fun hr => fromUtf8_none.1 h (isText_line.2 hr)⟩
  | some cs =>
    left
    have h1 := fromUtf8_iff.1 h
    obtain ⟨ds, hd⟩ := isText_line.1 ⟨cs, h1⟩
    have : cs = ds ++ ['\n'] := by
      apply encode_inj
      rw [← h1, encode_append, encode_newline, hd]
    subst this
    refine ⟨_, rfl, ?_⟩
    rw [hd]
    exact lineText_chomp ds

/-- What is read when the stream ends. -/
theorem lineItem_last {rest : Bytes} (hn : (10 : UInt8) ∉ rest) :
    (∃ t, lineItem rest = some t ∧ rest = encode t) ∨ (lineItem rest = none ∧ ¬ IsText rest) := by
  unfold lineItem
  cases h : fromUtf8 rest with
  | none => right; exact ⟨rfl, fromUtf8_none.1 h⟩
  | some cs =>
    left
    have h1 := fromUtf8_iff.1 h
    refine ⟨cs, ?_, h1⟩
    simp only [Option.map_some, Option.some.injEq]
    unfold chomp
    rw [if_neg]
    intro hl
    exact hn (by rw [h1]; exact newline_mem.2 (List.mem_of_getLast? hl))

/-! ## Cutting bytes into lines -/

theorem cuts_exists (s : Bytes) : ∃ lines rest, Cuts s lines rest := by
  induction s with
  | nil => exact ⟨[], [], ⟨rfl, by simp, by simp⟩⟩
  | cons b s ih =>
    obtain ⟨lines, rest, h⟩ := ih
    by_cases hb : b = 10
    · subst hb
      refine ⟨[] :: lines, rest, ⟨by rw [h.bytes]; simp, ?_, h.last⟩⟩
      intro l hl
      rcases List.mem_cons.1 hl with rfl | hl
      · simp
      · exact h.whole l hl
    · cases lines with
      | nil =>
        refine ⟨[], b :: rest, ⟨by have := h.bytes; simp at this; simp [this], by simp, ?_⟩⟩
        have := h.last
        simp only [List.mem_cons, not_or]
        exact ⟨fun e => hb e.symm, this⟩
      | cons l lines =>
        refine ⟨(b :: l) :: lines, rest, ⟨by rw [h.bytes]; simp, ?_, h.last⟩⟩
        intro x hx
        rcases List.mem_cons.1 hx with rfl | hx
        · have := h.whole l List.mem_cons_self
          simp only [List.mem_cons, not_or]
          exact ⟨fun e => hb e.symm, this⟩
        · exact h.whole x (List.mem_cons_of_mem _ hx)

theorem first_newline {a b x y : Bytes} (ha : (10 : UInt8) ∉ a) (hb : (10 : UInt8) ∉ b)
    (h : a ++ 10 :: x = b ++ 10 :: y) : a = b ∧ x = y := by
  induction a generalizing b with
  | nil =>
    cases b with
    | nil => simpa using h
    | cons c b =>
      simp only [List.nil_append, List.cons_append, List.cons.injEq] at h
      exact absurd (by rw [← h.1]; exact List.mem_cons_self) hb
  | cons c a ih =>
    cases b with
    | nil =>
      simp only [List.nil_append, List.cons_append, List.cons.injEq] at h
      exact absurd (by rw [h.1]; exact List.mem_cons_self) ha
    | cons d b =>
      simp only [List.cons_append, List.cons.injEq] at h
      obtain ⟨e1, e2⟩ := ih (fun hm => ha (List.mem_cons_of_mem _ hm)) (fun hm => hb (List.mem_cons_of_mem _ hm)) h.2
      exact ⟨by rw [h.1, e1], e2⟩

theorem cuts_unique {s : Bytes} {l l' : List Bytes} {r r' : Bytes} (h : Cuts s l r) (h' : Cuts s l' r') :
    l = l' ∧ r = r' := by
  induction l generalizing s l' with
  | nil =>
    cases l' with
    | nil =>
      have h1 := h.bytes; have h2 := h'.bytes
      simp at h1 h2
      exact ⟨rfl, h1 ▸ h2⟩
    | cons x l' =>
      have h1 := h.bytes
      simp only [List.flatMap_nil, List.nil_append] at h1
      have := h.last
      rw [← h1, h'.bytes] at this
      simp at this
  | cons x l ih =>
    cases l' with
    | nil =>
      have h1 := h'.bytes
      simp only [List.flatMap_nil, List.nil_append] at h1
      have := h'.last
      rw [← h1, h.bytes] at this
      simp at this
    | cons y l' =>
      have e := h.bytes.symm.trans h'.bytes
      simp only [List.flatMap_cons, List.append_assoc, List.singleton_append, List.cons_append, List.nil_append] at e
      obtain ⟨rfl, e2⟩ := first_newline (h.whole x List.mem_cons_self) (h'.whole y List.mem_cons_self) e
      obtain ⟨rfl, rfl⟩ := ih (s := l.flatMap (· ++ [10]) ++ r) ⟨rfl, fun z hz => h.whole z (List.mem_cons_of_mem _ hz), h.last⟩
        ⟨e2, fun z hz => h'.whole z (List.mem_cons_of_mem _ hz), h'.last⟩
      exact ⟨rfl, rfl⟩

/-- The lines of `a ++ b` when `a` ends with a line. -/
theorem cuts_append {s : Bytes} {l l' : List Bytes} {r : Bytes} (hl : ∀ x ∈ l, (10 : UInt8) ∉ x) (h : Cuts s l' r) :
    Cuts (l.flatMap (· ++ [10]) ++ s) (l ++ l') r := by
  refine ⟨by rw [h.bytes]; simp, ?_, h.last⟩
  intro x hx
  rcases List.mem_append.1 hx with hx | hx
  · exact hl x hx
  · exact h.whole x hx

theorem hears_append {l l' : List Bytes} {t t' : List Str} {b : Bool} (h : Hears l t false) (h' : Hears l' t' b) :
    Hears (l ++ l') (t ++ t') b := by
  generalize hf : false = f at h
  induction h with
  | all => exact h'
  | bad => cases hf
  | line ht _ ih => exact .line ht (ih hf)

theorem hears_bad {l : List Bytes} {t : List Str} (h : Hears l t true) (l' : List Bytes) : Hears (l ++ l') t true := by
  generalize hf : true = f at h
  induction h with
  | all => cases hf
  | bad hr => exact .bad hr
  | line ht _ ih => subst hf; exact .line ht (ih rfl)

/-- The place of the first newline. -/
theorem findIdx_newline {s : Bytes} : (∃ i, s.findIdx? (· = 10) = some i ∧ ∃ a b, s = a ++ 10 :: b ∧ i = a.length ∧
      (10 : UInt8) ∉ a) ∨ (s.findIdx? (· = 10) = none ∧ (10 : UInt8) ∉ s) := by
  induction s with
  | nil => right; simp
  | cons c s ih =>
    rw [List.findIdx?_cons]
    by_cases hc : c = 10
    · left
      subst hc
      exact ⟨0, by simp, [], s, rfl, rfl, by simp⟩
    · simp only [hc, decide_false, Bool.false_eq_true, if_false]
      rcases ih with ⟨i, hi, a, b, rfl, rfl, ha⟩ | ⟨h1, h2⟩
      · left
        refine ⟨a.length + 1, by rw [hi]; rfl, c :: a, b, rfl, by simp, ?_⟩
        simp only [List.mem_cons, not_or]
        exact ⟨fun e => hc e.symm, ha⟩
      · right
        refine ⟨by rw [h1]; rfl, ?_⟩
        simp only [List.mem_cons, not_or]
        exact ⟨fun e => hc e.symm, h2⟩

end Ced

import Verif.Model.Diff
import Verif.Proofs.Utf8

/-! Auxiliary lemmas: `str::is_char_boundary` finds the places between the characters of a text. -/

namespace Ced
open Spec

/-- The first byte of a character is not a continuation byte, all others are. -/
theorem encodeChar_cont (c : Char) {i : Nat} {b : UInt8} (hi : (String.utf8EncodeChar c)[i]? = some b) :
    isCont b = decide (0 < i) := by
  have hv : c.val.toNat < 0xD800 ∨ (0xDFFF < c.val.toNat ∧ c.val.toNat < 0x110000) := by
    have := c.valid
    simpa [UInt32.isValidChar, Nat.isValidChar] using this
  revert hi
  unfold String.utf8EncodeChar
  simp only
  generalize c.val.toNat = v at hv
  have first : ∀ n, n < 128 ∨ 192 ≤ n → n < 256 → isCont (UInt8.ofNat n) = decide (0 < 0) := by
    intro n h1 h2
    simp [isCont, UInt8.toNat_ofNat']; omega
  have later : ∀ n j, 128 ≤ n → n < 192 → isCont (UInt8.ofNat n) = decide (0 < j + 1) := by
    intro n j h1 h2
    simp [isCont, UInt8.toNat_ofNat']; omega
  split
  · rcases i with _ | i
    · intro h; cases h; exact first _ (by omega) (by omega)
    · intro h; cases h
  · split
    · rcases i with _ | _ | i
      · intro h; cases h; exact first _ (by omega) (by omega)
      · intro h; cases h; exact later _ _ (by omega) (by omega)
      · intro h; cases h
    · split
      · rcases i with _ | _ | _ | i
        · intro h; cases h; exact first _ (by omega) (by omega)
        · intro h; cases h; exact later _ _ (by omega) (by omega)
        · intro h; cases h; exact later _ _ (by omega) (by omega)
        · intro h; cases h
      · rcases i with _ | _ | _ | _ | i
        · intro h; cases h; exact first _ (by omega) (by omega)
        · intro h; cases h; exact later _ _ (by omega) (by omega)
        · intro h; cases h; exact later _ _ (by omega) (by omega)
        · intro h; cases h; exact later _ _ (by omega) (by omega)
        · intro h; cases h

theorem encode_cons (c : Char) (cs : List Char) : encode (c :: cs) = String.utf8EncodeChar c ++ encode cs := by
  simp [encode]

/-- A proper part of a character's encoding, not empty, is no text. -/
theorem not_isText_part {c : Char} {k : Nat} (h0 : 0 < k) (hk : k < (String.utf8EncodeChar c).length) :
    ¬ IsText ((String.utf8EncodeChar c).take k) := by
  rintro ⟨ds, hd⟩
  cases ds with
  | nil =>
    have := congrArg List.length hd
    rw [List.length_take] at this
    simp only [encode, List.flatMap_nil, List.length_nil] at this
    omega
  | cons d ds =>
    rw [encode_cons] at hd
    have e : String.utf8EncodeChar c = String.utf8EncodeChar d ++ (encode ds ++ (String.utf8EncodeChar c).drop k) := by
      rw [← List.append_assoc, ← hd, List.take_append_drop]
    have h1 := utf8Head_encode c []
    rw [List.append_nil, e, utf8Head_encode] at h1
    have h2 : (String.utf8EncodeChar d).length = (String.utf8EncodeChar c).length := by
      rw [e]; exact congrArg Prod.snd h1
    have := congrArg List.length hd
    rw [List.length_take, List.length_append] at this
    omega

/-- `is_char_boundary` says whether a place of a text is between two characters. -/
theorem isCharBoundary_iff {s : Bytes} (hs : IsText s) {k : Nat} (hk : k ≤ s.length) :
    isCharBoundary s k = true ↔ IsBoundary s k := by
  obtain ⟨cs, rfl⟩ := hs
  induction cs generalizing k with
  | nil =>
    have : k = 0 := by simpa [encode] using hk
    subst this
    exact ⟨fun _ => ⟨⟨[], rfl⟩, ⟨[], rfl⟩⟩, fun _ => rfl⟩
  | cons c cs ih =>
    have hpos := encodeChar_pos c
    rw [encode_cons] at hk ⊢
    rw [List.length_append] at hk
    rcases Nat.eq_zero_or_pos k with rfl | h0
    · exact ⟨fun _ => ⟨by rw [List.take_zero]; exact isText_nil, ⟨c :: cs, by rw [List.drop_zero, encode_cons]⟩⟩,
        fun _ => by simp [isCharBoundary]⟩
    · rcases Nat.lt_or_ge k (String.utf8EncodeChar c).length with hlt | hge
      · have hn : isCharBoundary (String.utf8EncodeChar c ++ encode cs) k = false := by
          unfold isCharBoundary
          rw [List.getElem?_append_left hlt, List.getElem?_eq_getElem hlt]
          simp only [encodeChar_cont c (List.getElem?_eq_getElem hlt), decide_eq_true h0, Bool.not_true, Bool.or_false, Bool.or_eq_false_iff,
            beq_eq_false_iff_ne, List.length_append]
          omega
        rw [hn]
        refine ⟨fun h => by simp at h, fun h => absurd h.1 ?_⟩
        rw [List.take_append_of_le_length (Nat.le_of_lt hlt)]
        exact not_isText_part h0 hlt
      · obtain ⟨j, rfl⟩ : ∃ j, k = (String.utf8EncodeChar c).length + j := ⟨k - (String.utf8EncodeChar c).length, by omega⟩
        have hj : j ≤ (encode cs).length := by omega
        have hb : IsBoundary (String.utf8EncodeChar c ++ encode cs) ((String.utf8EncodeChar c).length + j) ↔
            IsBoundary (encode cs) j := by
          unfold IsBoundary
          rw [List.take_length_add_append, List.drop_length_add_append]
          have hc : IsText (String.utf8EncodeChar c) := ⟨[c], by simp [encode]⟩
          exact ⟨fun h => ⟨isText_cancel hc h.1, h.2⟩, fun h => ⟨isText_append hc h.1, h.2⟩⟩
        rw [hb, ← ih hj]
        unfold isCharBoundary
        rw [List.getElem?_append_right (by omega), Nat.add_sub_cancel_left, List.length_append]
        rcases Nat.eq_zero_or_pos j with rfl | hj0
        · cases cs with
          | nil => simp [encode]
          | cons d ds =>
            have hd := encodeChar_pos d
            rw [encode_cons, List.getElem?_append_left hd, List.getElem?_eq_getElem hd]
            simp [encodeChar_cont d (List.getElem?_eq_getElem hd)]
        · have e1 : ((String.utf8EncodeChar c).length + j == 0) = false := by simp; omega
          have e2 : (j == 0) = false := by simp; omega
          have e3 : ((String.utf8EncodeChar c).length + j == (String.utf8EncodeChar c).length + (encode cs).length) =
              (j == (encode cs).length) := by
            rw [Bool.eq_iff_iff]; simp only [beq_iff_eq]; omega
          rw [e1, e2, e3]

end Ced

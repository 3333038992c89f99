import Verif.Model.F32

/-! # Rounding -/

namespace Ced.F32

theorem ulp_pos (n : Nat) : 0 < ulp n := Nat.two_pow_pos _

/-- the error is at most half a unit of the last place -/
theorem nearest_err (a b : Nat) (hb : 0 < b) :
    2 * (a * 2 ^ 149) ≤ 2 * (nearest a b * b) + ulp (a * 2 ^ 149 / b) * b ∧
    2 * (nearest a b * b) ≤ 2 * (a * 2 ^ 149) + ulp (a * 2 ^ 149 / b) * b := by
  unfold nearest
  generalize hA : a * 2 ^ 149 = A
  dsimp only
  generalize hu : ulp (A / b) = u
  have hup : 0 < u := hu ▸ ulp_pos _
  generalize hk : A / b / u = k
  have h1 : k * u * b ≤ A := by
    have h1 : k * u ≤ A / b := by rw [← hk]; exact Nat.div_mul_le_self _ _
    exact Nat.le_trans (Nat.mul_le_mul_right b h1) (Nat.div_mul_le_self _ _)
  have h2 : A < (k + 1) * u * b := by
    have h2 : A / b < (k + 1) * u := by
      rw [← hk, Nat.add_mul, Nat.one_mul]
      have := Nat.div_add_mod (A / b) u
      have := Nat.mod_lt (A / b) hup
      rw [Nat.mul_comm u] at *
      omega
    have h3 := Nat.div_add_mod A b
    have h4 := Nat.mod_lt A hb
    have h5 : (A / b + 1) * b ≤ (k + 1) * u * b := Nat.mul_le_mul_right b h2
    rw [Nat.add_mul, Nat.one_mul, Nat.mul_comm (A / b)] at h5
    omega
  have e : (k + 1) * u * b = k * u * b + u * b := by rw [Nat.add_mul, Nat.add_mul, Nat.one_mul]
  rw [e] at h2
  repeat' split
  all_goals (try rw [e])
  all_goals omega

theorem ulp_le {n : Nat} (h : 2 ^ 23 ≤ n) : ulp n * 2 ^ 23 ≤ n := by
  have hn : n ≠ 0 := by intro e; subst e; revert h; decide
  unfold ulp
  have h1 : 23 ≤ Nat.log2 n := (Nat.le_log2 hn).2 h
  rw [← Nat.pow_add, Nat.sub_add_cancel h1]
  exact Nat.log2_self_le hn

/-- small whole numbers are exact -/
theorem ofNat_exact {n : Nat} (h : n < 2 ^ 24) : ofNat n = n * 2 ^ 149 := by
  by_cases h0 : n = 0
  · subst h0; decide +kernel
  have hl : Nat.log2 (n * 2 ^ 149) = Nat.log2 n + 149 := by
    rw [Nat.log2_eq_iff (by have := Nat.two_pow_pos 149; exact Nat.mul_ne_zero h0 (Nat.ne_of_gt this))]
    have a := Nat.log2_self_le h0
    have b := @Nat.lt_log2_self n
    constructor
    · rw [Nat.pow_add]; exact Nat.mul_le_mul_right _ a
    · rw [show n.log2 + 149 + 1 = (n.log2 + 1) + 149 by omega, Nat.pow_add]
      exact Nat.mul_lt_mul_of_pos_right b (Nat.two_pow_pos _)
  have hlt : Nat.log2 n ≤ 23 := by
    have := (Nat.log2_lt h0 (k := 24)).2 h
    omega
  have hd : ulp (n * 2 ^ 149) ∣ n * 2 ^ 149 := by
    unfold ulp
    refine Nat.dvd_trans ?_ (Nat.dvd_mul_left _ _)
    exact Nat.pow_dvd_pow 2 (by omega)
  unfold ofNat nearest
  rw [Nat.div_one]
  dsimp only
  have e : n * 2 ^ 149 / ulp (n * 2 ^ 149) * ulp (n * 2 ^ 149) = n * 2 ^ 149 := Nat.div_mul_cancel hd
  rw [e, Nat.mul_one, Nat.sub_self, if_pos]
  have := ulp_pos (n * 2 ^ 149)
  omega

theorem relative {A R E : Nat} (h1 : 2 * A ≤ 2 * R + E) (h2 : 2 * R ≤ 2 * A + E) (h : E * 2 ^ 23 ≤ A) :
    (2 ^ 24 - 1) * A ≤ 2 ^ 24 * R ∧ 2 ^ 24 * R ≤ (2 ^ 24 + 1) * A := by omega

theorem apart {A U R R' p q : Nat} (hA : 0 < A) (hpq : p < q) (hq : q ≤ 2 ^ 23)
    (h1 : (2 ^ 24 - 1) * A ≤ 2 ^ 24 * (R * (p * U))) (h2 : 2 ^ 24 * (R' * (q * U)) ≤ (2 ^ 24 + 1) * A) : R' < R := by
  apply Nat.lt_of_not_le
  intro hle
  have e1 := Nat.mul_le_mul_left q h1
  have e2 := Nat.mul_le_mul_left p h2
  have e3 : q * (2 ^ 24 * (R * (p * U))) ≤ p * (2 ^ 24 * (R' * (q * U))) := by
    have : q * (2 ^ 24 * (R * (p * U))) = R * (2 ^ 24 * (p * (q * U))) := by
      generalize 2 ^ 24 = B; ac_rfl
    rw [this]
    have : p * (2 ^ 24 * (R' * (q * U))) = R' * (2 ^ 24 * (p * (q * U))) := by
      generalize 2 ^ 24 = B; ac_rfl
    rw [this]
    exact Nat.mul_le_mul_right _ hle
  have e4 : q * ((2 ^ 24 - 1) * A) ≤ p * ((2 ^ 24 + 1) * A) := Nat.le_trans e1 (Nat.le_trans e3 e2)
  rw [← Nat.mul_assoc, ← Nat.mul_assoc] at e4
  have e5 := Nat.le_of_mul_le_mul_right e4 hA
  omega

theorem hundredth_err {p : Nat} (h0 : 0 < p) (h : p ≤ 2 ^ 23) :
    (2 ^ 24 - 1) * (100 * 2 ^ 149 * 2 ^ 149) ≤ 2 ^ 24 * (hundredth (p * 2 ^ 149) * (p * 2 ^ 149)) ∧
    2 ^ 24 * (hundredth (p * 2 ^ 149) * (p * 2 ^ 149)) ≤ (2 ^ 24 + 1) * (100 * 2 ^ 149 * 2 ^ 149) := by
  have hb : 0 < p * 2 ^ 149 := Nat.mul_pos h0 (Nat.two_pow_pos _)
  obtain ⟨h1, h2⟩ := nearest_err (100 * 2 ^ 149) (p * 2 ^ 149) hb
  have h3 : 2 ^ 23 ≤ 100 * 2 ^ 149 * 2 ^ 149 / (p * 2 ^ 149) := by
    rw [Nat.le_div_iff_mul_le hb]
    calc 2 ^ 23 * (p * 2 ^ 149) ≤ 2 ^ 23 * (2 ^ 23 * 2 ^ 149) := Nat.mul_le_mul_left _ (Nat.mul_le_mul_right _ h)
      _ ≤ 100 * 2 ^ 149 * 2 ^ 149 := by decide +kernel
  have h4 : ulp (100 * 2 ^ 149 * 2 ^ 149 / (p * 2 ^ 149)) * (p * 2 ^ 149) * 2 ^ 23 ≤ 100 * 2 ^ 149 * 2 ^ 149 := by
    calc _ = ulp (100 * 2 ^ 149 * 2 ^ 149 / (p * 2 ^ 149)) * 2 ^ 23 * (p * 2 ^ 149) := by
          rw [Nat.mul_assoc, Nat.mul_comm (p * 2 ^ 149), ← Nat.mul_assoc]
      _ ≤ 100 * 2 ^ 149 * 2 ^ 149 / (p * 2 ^ 149) * (p * 2 ^ 149) := Nat.mul_le_mul_right _ (ulp_le h3)
      _ ≤ _ := Nat.div_mul_le_self _ _
  exact relative h1 h2 h4

/-- a shorter match has a greater score -/
theorem hundredth_lt {p q : Nat} (h0 : 0 < p) (hpq : p < q) (hq : q ≤ 2 ^ 23) :
    hundredth (q * 2 ^ 149) < hundredth (p * 2 ^ 149) := by
  exact apart (by decide +kernel) hpq hq (hundredth_err h0 (by omega)).1 (hundredth_err (p := q) (by omega) hq).2

/-- the scores of lengths below eight million compare as the lengths do, the other way round -/
theorem score_lt {n m : Nat} (h : n < m) (hm : m < 2 ^ 23) : hundredth (ofNat (1 + m)) < hundredth (ofNat (1 + n)) := by
  rw [ofNat_exact (by omega), ofNat_exact (by omega)]
  exact hundredth_lt (by omega) (by omega) (by omega)

end Ced.F32

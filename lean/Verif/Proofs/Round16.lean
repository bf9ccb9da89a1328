/-
Rounding to 11 bits, as `Verif/Proofs/Round32.lean`.
-/
import Verif.Model.Float16
import Verif.Proofs.Float

namespace Dcor

/-- The exponent of a positive number is unique. -/
theorem expo11_unique {q : ℚ} (_hq : 0 < q) {k j : ℤ} (hk1 : 2 ^ 10 ≤ q * 2 ^ k) (hk2 : q * 2 ^ k < 2 ^ 11)
    (hj1 : 2 ^ 10 ≤ q * 2 ^ j) (hj2 : q * 2 ^ j < 2 ^ 11) : k = j := by
  have key : ∀ {k j : ℤ}, 2 ^ 10 ≤ q * 2 ^ k → q * 2 ^ j < 2 ^ 11 → j ≤ k := by
    intro k j h1 h2
    by_contra hlt
    have h3 : (2 : ℚ) ^ (k + 1) ≤ 2 ^ j := zpow_le_zpow_right₀ (by norm_num) (by omega)
    have h4 : q * 2 ^ (k + 1) ≤ q * 2 ^ j := mul_le_mul_of_nonneg_left h3 _hq.le
    rw [zpow_add_one₀ (by norm_num)] at h4
    have : (2 : ℚ) ^ 11 = 2 ^ 10 * 2 := by norm_num
    nlinarith
  exact le_antisymm (key hj1 hk2) (key hk1 hj2)

theorem roundPos11_eq (p d : ℕ) (hp : 0 < p) (hd : 0 < d) {k : ℤ} (hk1 : 2 ^ 10 ≤ (p : ℚ) / d * 2 ^ k)
    (hk2 : (p : ℚ) / d * 2 ^ k < 2 ^ 11) : roundPos11 p d = rneQ ((p : ℚ) / d * 2 ^ k) * 2 ^ (-k) := by
  have hpq : (0 : ℚ) < p := by exact_mod_cast hp
  have hdq : (0 : ℚ) < d := by exact_mod_cast hd
  have hq : (0 : ℚ) < (p : ℚ) / d := div_pos hpq hdq
  set k0 : ℤ := 10 - ((Nat.log2 p : ℤ) - (Nat.log2 d : ℤ)) with hk0
  have lo : ∀ m : ℕ, 0 < m → (2 : ℚ) ^ (Nat.log2 m) ≤ m := fun m hm => by
    exact_mod_cast Nat.log2_self_le hm.ne'
  have hi : ∀ m : ℕ, 0 < m → (m : ℚ) < 2 ^ (Nat.log2 m + 1) := fun m _ => by
    exact_mod_cast Nat.lt_log2_self
  have e0 : (2 : ℚ) ^ k0 = 2 ^ 10 * 2 ^ Nat.log2 d / 2 ^ Nat.log2 p := by
    rw [hk0, show (10 : ℤ) - ((Nat.log2 p : ℤ) - (Nat.log2 d : ℤ)) = ((10 + Nat.log2 d : ℕ) : ℤ) - (Nat.log2 p : ℕ) by
      push_cast; ring, zpow_sub₀ (by norm_num), zpow_natCast, zpow_natCast, pow_add]
  have hPp : (0 : ℚ) < 2 ^ Nat.log2 p := by positivity
  have hPd : (0 : ℚ) < 2 ^ Nat.log2 d := by positivity
  have up : (p : ℚ) / d * 2 ^ k0 < 2 ^ 11 := by
    rw [e0, div_mul_div_comm, div_lt_iff₀ (by positivity)]
    have h1 := hi p hp
    have h2 := lo d hd
    rw [pow_succ] at h1
    have : (p : ℚ) * 2 ^ Nat.log2 d < 2 ^ Nat.log2 p * 2 * d := by
      calc (p : ℚ) * 2 ^ Nat.log2 d < 2 ^ Nat.log2 p * 2 * 2 ^ Nat.log2 d := by
            exact mul_lt_mul_of_pos_right h1 hPd
        _ ≤ _ := mul_le_mul_of_nonneg_left h2 (by positivity)
    calc (p : ℚ) * (2 ^ 10 * 2 ^ Nat.log2 d) = 2 ^ 10 * ((p : ℚ) * 2 ^ Nat.log2 d) := by ring
      _ < 2 ^ 10 * (2 ^ Nat.log2 p * 2 * (d : ℚ)) := by
          exact mul_lt_mul_of_pos_left this (by norm_num)
      _ = _ := by ring
  have dn : (2 : ℚ) ^ 9 < (p : ℚ) / d * 2 ^ k0 := by
    rw [e0, div_mul_div_comm, lt_div_iff₀ (by positivity)]
    have h1 := lo p hp
    have h2 := hi d hd
    rw [pow_succ] at h2
    have : (d : ℚ) * 2 ^ Nat.log2 p < 2 * ((p : ℚ) * 2 ^ Nat.log2 d) := by
      calc (d : ℚ) * 2 ^ Nat.log2 p < 2 ^ Nat.log2 d * 2 * 2 ^ Nat.log2 p := mul_lt_mul_of_pos_right h2 hPp
        _ ≤ 2 ^ Nat.log2 d * 2 * p := mul_le_mul_of_nonneg_left h1 (by positivity)
        _ = _ := by ring
    calc (2 : ℚ) ^ 9 * ((d : ℚ) * 2 ^ Nat.log2 p) < 2 ^ 9 * (2 * ((p : ℚ) * 2 ^ Nat.log2 d)) :=
          mul_lt_mul_of_pos_left this (by norm_num)
      _ = _ := by ring
  set k1 : ℤ := if scaleNum p k0 < 2 ^ 10 * scaleDen d k0 then k0 + 1 else k0 with hk1'
  have hk : k1 = k := by
    have hcond : scaleNum p k0 < 2 ^ 10 * scaleDen d k0 ↔ (p : ℚ) / d * 2 ^ k0 < 2 ^ 10 := by
      rw [← scale_eq, div_lt_iff₀ (by exact_mod_cast scaleDen_pos hd k0)]
      exact_mod_cast Iff.rfl
    apply expo11_unique hq _ _ hk1 hk2
    · rw [hk1']
      split_ifs with hc
      · rw [zpow_add_one₀ (by norm_num)]
        have : (2 : ℚ) ^ 10 = 2 ^ 9 * 2 := by norm_num
        linarith
      · rw [hcond, not_lt] at hc
        exact hc
    · rw [hk1']
      split_ifs with hc
      · rw [hcond] at hc
        rw [zpow_add_one₀ (by norm_num)]
        have : (2 : ℚ) ^ 11 = 2 ^ 10 * 2 := by norm_num
        linarith
      · exact up
  unfold roundPos11
  dsimp only
  rw [← hk0, ← hk1', hk]
  have hm := divEven_eq (scaleNum p k) (scaleDen d k) (scaleDen_pos hd k)
  rw [scale_eq] at hm
  rw [← hm]
  split_ifs with h
  · obtain ⟨j, rfl⟩ := Int.eq_ofNat_of_zero_le h
    rw [Rat.mkRat_eq_div]
    push_cast
    simp only [Int.toNat_natCast, zpow_neg, zpow_natCast]
    rfl
  · obtain ⟨j, hj⟩ := Int.eq_ofNat_of_zero_le (show 0 ≤ -k by omega)
    rw [Rat.mkRat_eq_div, hj]
    push_cast
    simp only [Int.toNat_natCast, zpow_natCast]
    rw [div_one]

theorem round11_zero : round11 0 = 0 := rfl

theorem round11_neg (q : ℚ) : round11 (-q) = -round11 q := by
  unfold round11
  rw [Rat.num_neg_eq_neg_num, Rat.den_neg_eq_den, Int.natAbs_neg]
  rcases lt_trichotomy q.num 0 with h | h | h
  · rw [if_neg (by omega), if_neg (by omega), if_neg (by omega), if_pos h, neg_neg]
  · simp [h]
  · rw [if_neg (by omega), if_pos (by omega), if_neg (by omega), if_neg (by omega)]

/-- Rounding of a positive number with exponent `-k`. -/
theorem round11_eq {q : ℚ} (hq : 0 < q) {k : ℤ} (hk1 : 2 ^ 10 ≤ q * 2 ^ k) (hk2 : q * 2 ^ k < 2 ^ 11) :
    round11 q = rneQ (q * 2 ^ k) * 2 ^ (-k) := by
  have hnum : 0 < q.num := Rat.num_pos.2 hq
  have hqe : ((q.num.natAbs : ℕ) : ℚ) / q.den = q := by
    have h1 : ((q.num.natAbs : ℕ) : ℚ) = (q.num : ℚ) := by
      have : ((q.num.natAbs : ℕ) : ℤ) = q.num := by omega
      rw [← Int.cast_natCast, this]
    rw [h1, Rat.num_div_den]
  unfold round11
  rw [if_neg (by omega), if_neg (by omega)]
  have := roundPos11_eq q.num.natAbs q.den (by omega) q.den_pos (k := k) (by rw [hqe]; exact hk1) (by rw [hqe]; exact hk2)
  rw [this, hqe]

/-- Every positive number has an exponent. -/
theorem exists_expo11 {q : ℚ} (hq : 0 < q) : ∃ k : ℤ, 2 ^ 10 ≤ q * 2 ^ k ∧ q * 2 ^ k < 2 ^ 11 := by
  obtain ⟨m, h1, h2⟩ := exists_mem_Ico_zpow (x := q) (y := (2 : ℚ)) hq (by norm_num)
  refine ⟨10 - m, ?_, ?_⟩
  · rw [zpow_sub₀ (by norm_num), ← mul_div_assoc, le_div_iff₀ (by positivity)]
    have : (0 : ℚ) < 2 ^ (10 : ℤ) := by positivity
    calc (2 : ℚ) ^ 10 * 2 ^ m ≤ 2 ^ 10 * q := mul_le_mul_of_nonneg_left h1 (by positivity)
      _ = q * 2 ^ (10 : ℤ) := by rw [mul_comm]; rfl
  · rw [zpow_sub₀ (by norm_num), ← mul_div_assoc, div_lt_iff₀ (by positivity)]
    rw [zpow_add_one₀ (by norm_num)] at h2
    calc q * (2 : ℚ) ^ (10 : ℤ) < 2 ^ m * 2 * 2 ^ (10 : ℤ) := mul_lt_mul_of_pos_right h2 (by positivity)
      _ = 2 ^ 11 * 2 ^ m := by
        rw [show ((2 : ℚ) ^ (10 : ℤ)) = 2 ^ 10 from rfl]; ring

/-- The relative error of rounding is at most `2 ^ -11`. -/
theorem round11_err (q : ℚ) : |round11 q - q| ≤ |q| / 2 ^ 11 := by
  have pos : ∀ q : ℚ, 0 < q → |round11 q - q| ≤ q / 2 ^ 11 := by
    intro q hq
    obtain ⟨k, h1, h2⟩ := exists_expo11 hq
    rw [round11_eq hq h1 h2]
    have he := rneQ_err (q * 2 ^ k)
    have hp : (0 : ℚ) < 2 ^ k := by positivity
    have e : (rneQ (q * 2 ^ k) : ℚ) * 2 ^ (-k) - q = (rneQ (q * 2 ^ k) - q * 2 ^ k) * 2 ^ (-k) := by
      rw [sub_mul, mul_assoc q, zpow_neg, mul_inv_cancel₀ hp.ne', mul_one]
    rw [e, abs_mul, abs_of_pos (show (0 : ℚ) < 2 ^ (-k) by positivity), zpow_neg, ← div_eq_mul_inv,
      div_le_iff₀ hp]
    have : (2 : ℚ) ^ 11 = 2 * 2 ^ 10 := by norm_num
    rw [this]
    rw [div_mul_eq_mul_div, le_div_iff₀ (by norm_num)]
    linarith
  rcases lt_trichotomy q 0 with h | h | h
  · have := pos (-q) (by linarith)
    rw [abs_of_neg h]
    rw [round11_neg, show -round11 q - -q = -(round11 q - q) by ring, abs_neg] at this
    exact this
  · subst h
    simp [round11_zero]
  · rw [abs_of_pos h]
    exact pos q h

/-- Integers up to `2 ^ 11` are not rounded. -/
theorem round11_int (z : ℤ) (hz : |z| ≤ 2 ^ 11) : round11 (z : ℚ) = z := by
  have pos : ∀ z : ℤ, 0 < z → z ≤ 2 ^ 11 → round11 (z : ℚ) = z := by
    intro z h0 h1
    have hz : (0 : ℚ) < (z : ℚ) := by exact_mod_cast h0
    obtain ⟨k, hk1, hk2⟩ := exists_expo11 hz
    rcases h1.lt_or_eq with h1 | h1
    · have hk : 0 ≤ k := by
        by_contra hlt
        have h3 : (2 : ℚ) ^ k ≤ 2 ^ (-1 : ℤ) := zpow_le_zpow_right₀ (by norm_num) (by omega)
        have h4 : (z : ℚ) * 2 ^ k ≤ z * 2 ^ (-1 : ℤ) := mul_le_mul_of_nonneg_left h3 hz.le
        have h5 : (z : ℚ) < 2 ^ 11 := by exact_mod_cast h1
        have h6 : (2 : ℚ) ^ (-1 : ℤ) = 1 / 2 := by norm_num
        rw [h6] at h4
        have : (2 : ℚ) ^ 11 = 2 * 2 ^ 10 := by norm_num
        linarith
      obtain ⟨j, rfl⟩ := Int.eq_ofNat_of_zero_le hk
      rw [round11_eq hz hk1 hk2]
      have e : (z : ℚ) * 2 ^ (j : ℤ) = ((z * 2 ^ j : ℤ) : ℚ) := by
        push_cast
        rfl
      rw [e, rneQ_int]
      push_cast
      rw [zpow_neg, zpow_natCast]
      field_simp
    · subst h1
      have := round11_eq (q := ((2 ^ 11 : ℤ) : ℚ)) (k := -1) hz (by norm_num) (by norm_num)
      rw [this, show (((2 ^ 11 : ℤ) : ℚ) * 2 ^ (-1 : ℤ)) = ((2 ^ 10 : ℤ) : ℚ) by norm_num, rneQ_int]
      norm_num
  rcases lt_trichotomy z 0 with h | h | h
  · have := pos (-z) (by omega) (by rw [abs_of_neg h] at hz; exact hz)
    push_cast at this
    rw [round11_neg] at this
    linarith
  · subst h
    simp [round11_zero]
  · exact pos z h (by rwa [abs_of_pos h] at hz)

/-- What is at least halfway between the largest number and the next one overflows. -/
theorem round11_large {q : ℚ} (hq : 65520 ≤ q) : 2 ^ 16 ≤ round11 q := by
  have h0 : 0 < q := by linarith
  rcases lt_or_ge q (2 ^ 16) with h | h
  · rw [round11_eq (k := -5) h0 (by norm_num at *; linarith) (by norm_num at *; linarith)]
    have u := rneQ_mono (p := 4095 / 2) (q := q * 2 ^ (-5 : ℤ)) (by norm_num; linarith)
    have e : rneQ (4095 / 2) = 2048 := by
      unfold rneQ
      norm_num
    rw [e] at u
    have u' : (2048 : ℚ) ≤ rneQ (q * 2 ^ (-5 : ℤ)) := by exact_mod_cast u
    norm_num at u' ⊢
    linarith
  · obtain ⟨k, h1, h2⟩ := exists_expo11 h0
    rw [round11_eq h0 h1 h2]
    have hk : k ≤ -6 := by
      by_contra hlt
      have h3 : (2 : ℚ) ^ (-5 : ℤ) ≤ 2 ^ k := zpow_le_zpow_right₀ (by norm_num) (by omega)
      have h4 : q * 2 ^ (-5 : ℤ) ≤ q * 2 ^ k := mul_le_mul_of_nonneg_left h3 h0.le
      norm_num at h2 h4 h
      linarith
    have u := rneQ_mono h1
    rw [show rneQ ((2 : ℚ) ^ 10) = 2 ^ 10 by
      have := rneQ_int (2 ^ 10)
      rwa [Int.cast_pow, Int.cast_ofNat] at this] at u
    have u' : (2 : ℚ) ^ 10 ≤ rneQ (q * 2 ^ k) := by exact_mod_cast u
    have h3 : (2 : ℚ) ^ (6 : ℤ) ≤ 2 ^ (-k) := zpow_le_zpow_right₀ (by norm_num) (by omega)
    calc (2 : ℚ) ^ 16 = 2 ^ 10 * 2 ^ (6 : ℤ) := by norm_num
      _ ≤ _ := mul_le_mul u' h3 (by positivity) (by linarith [show (0 : ℚ) < 2 ^ 10 by norm_num])

end Dcor

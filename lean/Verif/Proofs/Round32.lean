/-
Rounding to 24 bits, as `Verif/Proofs/Round64.lean`.
-/
import Verif.Model.Float32
import Verif.Proofs.Float

namespace Dcor

/-- The exponent of a positive number is unique. -/
theorem expo32_unique {q : ℚ} (_hq : 0 < q) {k j : ℤ} (hk1 : 2 ^ 23 ≤ q * 2 ^ k) (hk2 : q * 2 ^ k < 2 ^ 24)
    (hj1 : 2 ^ 23 ≤ q * 2 ^ j) (hj2 : q * 2 ^ j < 2 ^ 24) : k = j := by
  have key : ∀ {k j : ℤ}, 2 ^ 23 ≤ q * 2 ^ k → q * 2 ^ j < 2 ^ 24 → j ≤ k := by
    intro k j h1 h2
    by_contra hlt
    have h3 : (2 : ℚ) ^ (k + 1) ≤ 2 ^ j := zpow_le_zpow_right₀ (by norm_num) (by omega)
    have h4 : q * 2 ^ (k + 1) ≤ q * 2 ^ j := mul_le_mul_of_nonneg_left h3 _hq.le
    rw [zpow_add_one₀ (by norm_num)] at h4
    have : (2 : ℚ) ^ 24 = 2 ^ 23 * 2 := by norm_num
    nlinarith
  exact le_antisymm (key hj1 hk2) (key hk1 hj2)

theorem roundPos32_eq (p d : ℕ) (hp : 0 < p) (hd : 0 < d) {k : ℤ} (hk1 : 2 ^ 23 ≤ (p : ℚ) / d * 2 ^ k)
    (hk2 : (p : ℚ) / d * 2 ^ k < 2 ^ 24) : roundPos32 p d = rneQ ((p : ℚ) / d * 2 ^ k) * 2 ^ (-k) := by
  have hpq : (0 : ℚ) < p := by exact_mod_cast hp
  have hdq : (0 : ℚ) < d := by exact_mod_cast hd
  have hq : (0 : ℚ) < (p : ℚ) / d := div_pos hpq hdq
  set k0 : ℤ := 23 - ((Nat.log2 p : ℤ) - (Nat.log2 d : ℤ)) with hk0
  have lo : ∀ m : ℕ, 0 < m → (2 : ℚ) ^ (Nat.log2 m) ≤ m := fun m hm => by
    exact_mod_cast Nat.log2_self_le hm.ne'
  have hi : ∀ m : ℕ, 0 < m → (m : ℚ) < 2 ^ (Nat.log2 m + 1) := fun m _ => by
    exact_mod_cast Nat.lt_log2_self
  have e0 : (2 : ℚ) ^ k0 = 2 ^ 23 * 2 ^ Nat.log2 d / 2 ^ Nat.log2 p := by
    rw [hk0, show (23 : ℤ) - ((Nat.log2 p : ℤ) - (Nat.log2 d : ℤ)) = ((23 + Nat.log2 d : ℕ) : ℤ) - (Nat.log2 p : ℕ) by
      push_cast; ring, zpow_sub₀ (by norm_num), zpow_natCast, zpow_natCast, pow_add]
  have hPp : (0 : ℚ) < 2 ^ Nat.log2 p := by positivity
  have hPd : (0 : ℚ) < 2 ^ Nat.log2 d := by positivity
  have up : (p : ℚ) / d * 2 ^ k0 < 2 ^ 24 := by
    rw [e0, div_mul_div_comm, div_lt_iff₀ (by positivity)]
    have h1 := hi p hp
    have h2 := lo d hd
    rw [pow_succ] at h1
    have : (p : ℚ) * 2 ^ Nat.log2 d < 2 ^ Nat.log2 p * 2 * d := by
      calc (p : ℚ) * 2 ^ Nat.log2 d < 2 ^ Nat.log2 p * 2 * 2 ^ Nat.log2 d := by
            exact mul_lt_mul_of_pos_right h1 hPd
        _ ≤ _ := mul_le_mul_of_nonneg_left h2 (by positivity)
    calc (p : ℚ) * (2 ^ 23 * 2 ^ Nat.log2 d) = 2 ^ 23 * ((p : ℚ) * 2 ^ Nat.log2 d) := by ring
      _ < 2 ^ 23 * (2 ^ Nat.log2 p * 2 * (d : ℚ)) := by
          exact mul_lt_mul_of_pos_left this (by norm_num)
      _ = _ := by ring
  have dn : (2 : ℚ) ^ 22 < (p : ℚ) / d * 2 ^ k0 := by
    rw [e0, div_mul_div_comm, lt_div_iff₀ (by positivity)]
    have h1 := lo p hp
    have h2 := hi d hd
    rw [pow_succ] at h2
    have : (d : ℚ) * 2 ^ Nat.log2 p < 2 * ((p : ℚ) * 2 ^ Nat.log2 d) := by
      calc (d : ℚ) * 2 ^ Nat.log2 p < 2 ^ Nat.log2 d * 2 * 2 ^ Nat.log2 p := mul_lt_mul_of_pos_right h2 hPp
        _ ≤ 2 ^ Nat.log2 d * 2 * p := mul_le_mul_of_nonneg_left h1 (by positivity)
        _ = _ := by ring
    calc (2 : ℚ) ^ 22 * ((d : ℚ) * 2 ^ Nat.log2 p) < 2 ^ 22 * (2 * ((p : ℚ) * 2 ^ Nat.log2 d)) :=
          mul_lt_mul_of_pos_left this (by norm_num)
      _ = _ := by ring
  set k1 : ℤ := if scaleNum p k0 < 2 ^ 23 * scaleDen d k0 then k0 + 1 else k0 with hk1'
  have hk : k1 = k := by
    have hcond : scaleNum p k0 < 2 ^ 23 * scaleDen d k0 ↔ (p : ℚ) / d * 2 ^ k0 < 2 ^ 23 := by
      rw [← scale_eq, div_lt_iff₀ (by exact_mod_cast scaleDen_pos hd k0)]
      exact_mod_cast Iff.rfl
    apply expo32_unique hq _ _ hk1 hk2
    · rw [hk1']
      split_ifs with hc
      · rw [zpow_add_one₀ (by norm_num)]
        have : (2 : ℚ) ^ 23 = 2 ^ 22 * 2 := by norm_num
        linarith
      · rw [hcond, not_lt] at hc
        exact hc
    · rw [hk1']
      split_ifs with hc
      · rw [hcond] at hc
        rw [zpow_add_one₀ (by norm_num)]
        have : (2 : ℚ) ^ 24 = 2 ^ 23 * 2 := by norm_num
        linarith
      · exact up
  unfold roundPos32
  dsimp only
  rw [← hk0, ← hk1', hk]
  have hm := divEven_eq (scaleNum p k) (scaleDen d k) (scaleDen_pos hd k)
  rw [scale_eq] at hm
  rw [← hm]
  split_ifs with h
  · obtain ⟨j, rfl⟩ := Int.eq_ofNat_of_zero_le h
    rw [Rat.mkRat_eq_div]
    push_cast
    simp only [Int.toNat_natCast, zpow_neg, zpow_natCast]
    rfl
  · obtain ⟨j, hj⟩ := Int.eq_ofNat_of_zero_le (show 0 ≤ -k by omega)
    rw [Rat.mkRat_eq_div, hj]
    push_cast
    simp only [Int.toNat_natCast, zpow_natCast]
    rw [div_one]

theorem round32_zero : round32 0 = 0 := rfl

theorem round32_neg (q : ℚ) : round32 (-q) = -round32 q := by
  unfold round32
  rw [Rat.num_neg_eq_neg_num, Rat.den_neg_eq_den, Int.natAbs_neg]
  rcases lt_trichotomy q.num 0 with h | h | h
  · rw [if_neg (by omega), if_neg (by omega), if_neg (by omega), if_pos h, neg_neg]
  · simp [h]
  · rw [if_neg (by omega), if_pos (by omega), if_neg (by omega), if_neg (by omega)]

/-- Rounding of a positive number with exponent `-k`. -/
theorem round32_eq {q : ℚ} (hq : 0 < q) {k : ℤ} (hk1 : 2 ^ 23 ≤ q * 2 ^ k) (hk2 : q * 2 ^ k < 2 ^ 24) :
    round32 q = rneQ (q * 2 ^ k) * 2 ^ (-k) := by
  have hnum : 0 < q.num := Rat.num_pos.2 hq
  have hqe : ((q.num.natAbs : ℕ) : ℚ) / q.den = q := by
    have h1 : ((q.num.natAbs : ℕ) : ℚ) = (q.num : ℚ) := by
      have : ((q.num.natAbs : ℕ) : ℤ) = q.num := by omega
      rw [← Int.cast_natCast, this]
    rw [h1, Rat.num_div_den]
  unfold round32
  rw [if_neg (by omega), if_neg (by omega)]
  have := roundPos32_eq q.num.natAbs q.den (by omega) q.den_pos (k := k) (by rw [hqe]; exact hk1) (by rw [hqe]; exact hk2)
  rw [this, hqe]

/-- Every positive number has an exponent. -/
theorem exists_expo32 {q : ℚ} (hq : 0 < q) : ∃ k : ℤ, 2 ^ 23 ≤ q * 2 ^ k ∧ q * 2 ^ k < 2 ^ 24 := by
  obtain ⟨m, h1, h2⟩ := exists_mem_Ico_zpow (x := q) (y := (2 : ℚ)) hq (by norm_num)
  refine ⟨23 - m, ?_, ?_⟩
  · rw [zpow_sub₀ (by norm_num), ← mul_div_assoc, le_div_iff₀ (by positivity)]
    have : (0 : ℚ) < 2 ^ (23 : ℤ) := by positivity
    calc (2 : ℚ) ^ 23 * 2 ^ m ≤ 2 ^ 23 * q := mul_le_mul_of_nonneg_left h1 (by positivity)
      _ = q * 2 ^ (23 : ℤ) := by rw [mul_comm]; rfl
  · rw [zpow_sub₀ (by norm_num), ← mul_div_assoc, div_lt_iff₀ (by positivity)]
    rw [zpow_add_one₀ (by norm_num)] at h2
    calc q * (2 : ℚ) ^ (23 : ℤ) < 2 ^ m * 2 * 2 ^ (23 : ℤ) := mul_lt_mul_of_pos_right h2 (by positivity)
      _ = 2 ^ 24 * 2 ^ m := by
        rw [show ((2 : ℚ) ^ (23 : ℤ)) = 2 ^ 23 from rfl]; ring

/-- The relative error of rounding is at most `2 ^ -24`. -/
theorem round32_err (q : ℚ) : |round32 q - q| ≤ |q| / 2 ^ 24 := by
  have pos : ∀ q : ℚ, 0 < q → |round32 q - q| ≤ q / 2 ^ 24 := by
    intro q hq
    obtain ⟨k, h1, h2⟩ := exists_expo32 hq
    rw [round32_eq hq h1 h2]
    have he := rneQ_err (q * 2 ^ k)
    have hp : (0 : ℚ) < 2 ^ k := by positivity
    have e : (rneQ (q * 2 ^ k) : ℚ) * 2 ^ (-k) - q = (rneQ (q * 2 ^ k) - q * 2 ^ k) * 2 ^ (-k) := by
      rw [sub_mul, mul_assoc q, zpow_neg, mul_inv_cancel₀ hp.ne', mul_one]
    rw [e, abs_mul, abs_of_pos (show (0 : ℚ) < 2 ^ (-k) by positivity), zpow_neg, ← div_eq_mul_inv,
      div_le_iff₀ hp]
    have : (2 : ℚ) ^ 24 = 2 * 2 ^ 23 := by norm_num
    rw [this]
    rw [div_mul_eq_mul_div, le_div_iff₀ (by norm_num)]
    linarith
  rcases lt_trichotomy q 0 with h | h | h
  · have := pos (-q) (by linarith)
    rw [abs_of_neg h]
    rw [round32_neg, show -round32 q - -q = -(round32 q - q) by ring, abs_neg] at this
    exact this
  · subst h
    simp [round32_zero]
  · rw [abs_of_pos h]
    exact pos q h

/-- Scaling by a power of two is exact. -/
theorem round32_scale (q : ℚ) (j : ℤ) : round32 (2 ^ j * q) = 2 ^ j * round32 q := by
  have hj : (0 : ℚ) < 2 ^ j := by positivity
  have pos : ∀ q : ℚ, 0 < q → round32 (2 ^ j * q) = 2 ^ j * round32 q := by
    intro q hq
    obtain ⟨k, h1, h2⟩ := exists_expo32 hq
    have e : (2 : ℚ) ^ j * q * 2 ^ (k - j) = q * 2 ^ k := by
      rw [zpow_sub₀ (by norm_num)]
      field_simp
    rw [round32_eq hq h1 h2, round32_eq (k := k - j) (mul_pos hj hq) (by rw [e]; exact h1) (by rw [e]; exact h2), e,
      show -(k - j) = j + -k by ring, zpow_add₀ (by norm_num)]
    ring
  rcases lt_trichotomy q 0 with h | h | h
  · have := pos (-q) (by linarith)
    rw [mul_neg, round32_neg, round32_neg] at this
    linarith
  · subst h
    simp [round32_zero]
  · exact pos q h

/-- Integers up to `2 ^ 24` are not rounded. -/
theorem round32_int (z : ℤ) (hz : |z| ≤ 2 ^ 24) : round32 (z : ℚ) = z := by
  have pos : ∀ z : ℤ, 0 < z → z ≤ 2 ^ 24 → round32 (z : ℚ) = z := by
    intro z h0 h1
    have hz : (0 : ℚ) < (z : ℚ) := by exact_mod_cast h0
    obtain ⟨k, hk1, hk2⟩ := exists_expo32 hz
    rcases h1.lt_or_eq with h1 | h1
    · have hk : 0 ≤ k := by
        by_contra hlt
        have h3 : (2 : ℚ) ^ k ≤ 2 ^ (-1 : ℤ) := zpow_le_zpow_right₀ (by norm_num) (by omega)
        have h4 : (z : ℚ) * 2 ^ k ≤ z * 2 ^ (-1 : ℤ) := mul_le_mul_of_nonneg_left h3 hz.le
        have h5 : (z : ℚ) < 2 ^ 24 := by exact_mod_cast h1
        have h6 : (2 : ℚ) ^ (-1 : ℤ) = 1 / 2 := by norm_num
        rw [h6] at h4
        have : (2 : ℚ) ^ 24 = 2 * 2 ^ 23 := by norm_num
        linarith
      obtain ⟨j, rfl⟩ := Int.eq_ofNat_of_zero_le hk
      rw [round32_eq hz hk1 hk2]
      have e : (z : ℚ) * 2 ^ (j : ℤ) = ((z * 2 ^ j : ℤ) : ℚ) := by
        push_cast
        rfl
      rw [e, rneQ_int]
      push_cast
      rw [zpow_neg, zpow_natCast]
      field_simp
    · subst h1
      have := round32_eq (q := ((2 ^ 24 : ℤ) : ℚ)) (k := -1) hz (by norm_num) (by norm_num)
      rw [this, show (((2 ^ 24 : ℤ) : ℚ) * 2 ^ (-1 : ℤ)) = ((2 ^ 23 : ℤ) : ℚ) by norm_num, rneQ_int]
      norm_num
  rcases lt_trichotomy z 0 with h | h | h
  · have := pos (-z) (by omega) (by rw [abs_of_neg h] at hz; exact hz)
    push_cast at this
    rw [round32_neg] at this
    linarith
  · subst h
    simp [round32_zero]
  · exact pos z h (by rwa [abs_of_pos h] at hz)

theorem round32_nonneg {q : ℚ} (hq : 0 ≤ q) : 0 ≤ round32 q := by
  have h := abs_le.1 (round32_err q)
  rw [abs_of_nonneg hq] at h
  have : q / 2 ^ 24 ≤ q := div_le_self hq (by norm_num)
  linarith [h.1]


/-- A rounded number is an integer of 24 bits times a power of two. -/
theorem round32_form (q : ℚ) : ∃ m k : ℤ, |m| ≤ 2 ^ 24 ∧ round32 q = m * 2 ^ k := by
  have pos : ∀ q : ℚ, 0 < q → ∃ m k : ℤ, |m| ≤ 2 ^ 24 ∧ round32 q = m * 2 ^ k := by
    intro q hq
    obtain ⟨k, h1, h2⟩ := exists_expo32 hq
    refine ⟨rneQ (q * 2 ^ k), -k, ?_, round32_eq hq h1 h2⟩
    have e : rneQ ((2 : ℚ) ^ 24) = 2 ^ 24 := by
      have := rneQ_int (2 ^ 24)
      rwa [Int.cast_pow, Int.cast_ofNat] at this
    have u := rneQ_mono h2.le
    have e0 : rneQ 0 = 0 := by exact_mod_cast rneQ_int 0
    have l := rneQ_mono (p := 0) (q := q * 2 ^ k) (by positivity)
    rw [e] at u
    rw [e0] at l
    rw [abs_of_nonneg l]
    exact u
  rcases lt_trichotomy q 0 with h | h | h
  · obtain ⟨m, k, hm, e⟩ := pos (-q) (by linarith)
    refine ⟨-m, k, by rwa [abs_neg], ?_⟩
    rw [round32_neg] at e
    push_cast
    linarith
  · exact ⟨0, 0, by norm_num, by rw [h, round32_zero]; simp⟩
  · exact pos q h

theorem round32_fixed {m k : ℤ} (hm : |m| ≤ 2 ^ 24) : round32 ((m : ℚ) * 2 ^ k) = m * 2 ^ k := by
  rw [mul_comm, round32_scale, round32_int m hm]

/-- Rounding a rounded number changes nothing. -/
theorem round32_idem (q : ℚ) : round32 (round32 q) = round32 q := by
  obtain ⟨m, k, hm, e⟩ := round32_form q
  rw [e, round32_fixed hm]

theorem round32_pos {q : ℚ} (hq : 0 < q) : 0 < round32 q := by
  have h := abs_le.1 (round32_err q)
  rw [abs_of_pos hq] at h
  have : q / 2 ^ 24 < q := div_lt_self hq (by norm_num)
  linarith [h.1]

end Dcor

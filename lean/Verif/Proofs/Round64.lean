/-
Rounding to 53 bits: exactness on integers, relative error, scaling by powers of two.
-/
import Verif.Model.Rounding
import Mathlib.Data.Rat.Floor
import Mathlib.Data.Nat.Log
import Mathlib.Algebra.Order.Field.Power
import Mathlib.Tactic.Positivity
import Mathlib.Tactic.FieldSimp
import Mathlib.Tactic.Linarith
import Mathlib.Tactic.Ring
import Mathlib.Tactic.NormNum

namespace Dcor

/-- Nearest integer, ties to even. -/
def rneQ (q : ℚ) : ℤ :=
  let m := ⌊q⌋
  if 2 * (q - m) < 1 then m else if 1 < 2 * (q - m) then m + 1 else if m % 2 = 0 then m else m + 1

theorem rneQ_int (z : ℤ) : rneQ (z : ℚ) = z := by
  unfold rneQ
  simp

theorem rneQ_err (q : ℚ) : |(rneQ q : ℚ) - q| ≤ 1 / 2 := by
  have h1 := Int.floor_le q
  have h2 := Int.lt_floor_add_one q
  unfold rneQ
  dsimp only
  rw [abs_le]
  split_ifs <;> push_cast <;> constructor <;> linarith

theorem rneQ_mono {p q : ℚ} (h : p ≤ q) : rneQ p ≤ rneQ q := by
  have hf := Int.floor_le_floor h
  have p1 := Int.floor_le p
  have p2 := Int.lt_floor_add_one p
  have q1 := Int.floor_le q
  have q2 := Int.lt_floor_add_one q
  rcases hf.lt_or_eq with hlt | heq
  · have hp : rneQ p ≤ ⌊p⌋ + 1 := by
      unfold rneQ; dsimp only; split_ifs <;> omega
    have hq : ⌊q⌋ ≤ rneQ q := by
      unfold rneQ; dsimp only; split_ifs <;> omega
    omega
  · unfold rneQ
    dsimp only
    rw [heq] at *
    split_ifs <;> first | omega | (exfalso; linarith)

theorem divEven_eq (N D : ℕ) (hD : 0 < D) : ((divEven N D : ℕ) : ℤ) = rneQ ((N : ℚ) / D) := by
  have hDq : (0 : ℚ) < D := by exact_mod_cast hD
  have hfl : ⌊(N : ℚ) / D⌋ = ((N / D : ℕ) : ℤ) := by
    rw [Int.floor_eq_iff]
    have h := Nat.div_add_mod N D
    have h2 := Nat.mod_lt N hD
    have hq : (D : ℚ) * ((N / D : ℕ) : ℚ) + ((N % D : ℕ) : ℚ) = N := by exact_mod_cast h
    have h2q : ((N % D : ℕ) : ℚ) < D := by exact_mod_cast h2
    have h3q : (0 : ℚ) ≤ ((N % D : ℕ) : ℚ) := by positivity
    constructor
    · rw [le_div_iff₀ hDq, Int.cast_natCast]; nlinarith
    · rw [div_lt_iff₀ hDq, Int.cast_natCast]; nlinarith
  have hfr : (N : ℚ) / D - ((N / D : ℕ) : ℤ) = ((N % D : ℕ) : ℚ) / D := by
    have h := Nat.div_add_mod N D
    have hq : (D : ℚ) * ((N / D : ℕ) : ℚ) + ((N % D : ℕ) : ℚ) = N := by exact_mod_cast h
    rw [eq_div_iff hDq.ne', sub_mul, div_mul_cancel₀ _ hDq.ne', Int.cast_natCast]
    linarith
  unfold divEven rneQ
  dsimp only
  rw [hfl, hfr]
  have e1 : 2 * (N % D) < D ↔ 2 * (((N % D : ℕ) : ℚ) / D) < 1 := by
    rw [← mul_div_assoc, div_lt_one hDq]
    exact_mod_cast Iff.rfl
  have e2 : D < 2 * (N % D) ↔ 1 < 2 * (((N % D : ℕ) : ℚ) / D) := by
    rw [← mul_div_assoc, one_lt_div hDq]
    exact_mod_cast Iff.rfl
  have e3 : (N / D) % 2 = 0 ↔ ((N / D : ℕ) : ℤ) % 2 = 0 := by omega
  simp only [e1, e2, e3]
  split_ifs <;> push_cast <;> rfl

theorem scale_eq (p d : ℕ) (k : ℤ) : (scaleNum p k : ℚ) / scaleDen d k = (p : ℚ) / d * 2 ^ k := by
  unfold scaleNum scaleDen
  split_ifs with h
  · obtain ⟨j, rfl⟩ := Int.eq_ofNat_of_zero_le h
    push_cast
    simp only [Int.toNat_natCast, zpow_natCast]
    ring
  · obtain ⟨j, hj⟩ := Int.eq_ofNat_of_zero_le (show 0 ≤ -k by omega)
    rw [show k = -(j : ℤ) by omega]
    push_cast
    simp only [neg_neg, Int.toNat_natCast, zpow_neg, zpow_natCast]
    rw [div_mul_eq_div_div, div_eq_mul_inv _ ((2 : ℚ) ^ j)]

theorem scaleDen_pos {d : ℕ} (hd : 0 < d) (k : ℤ) : 0 < scaleDen d k := by
  unfold scaleDen
  split_ifs
  · exact hd
  · positivity

/-- The exponent of a positive number is unique. -/
theorem expo_unique {q : ℚ} (_hq : 0 < q) {k j : ℤ} (hk1 : 2 ^ 52 ≤ q * 2 ^ k) (hk2 : q * 2 ^ k < 2 ^ 53)
    (hj1 : 2 ^ 52 ≤ q * 2 ^ j) (hj2 : q * 2 ^ j < 2 ^ 53) : k = j := by
  have key : ∀ {k j : ℤ}, 2 ^ 52 ≤ q * 2 ^ k → q * 2 ^ j < 2 ^ 53 → j ≤ k := by
    intro k j h1 h2
    by_contra hlt
    have h3 : (2 : ℚ) ^ (k + 1) ≤ 2 ^ j := zpow_le_zpow_right₀ (by norm_num) (by omega)
    have h4 : q * 2 ^ (k + 1) ≤ q * 2 ^ j := mul_le_mul_of_nonneg_left h3 _hq.le
    rw [zpow_add_one₀ (by norm_num)] at h4
    have : (2 : ℚ) ^ 53 = 2 ^ 52 * 2 := by norm_num
    nlinarith
  exact le_antisymm (key hj1 hk2) (key hk1 hj2)

theorem roundPos_eq (p d : ℕ) (hp : 0 < p) (hd : 0 < d) {k : ℤ} (hk1 : 2 ^ 52 ≤ (p : ℚ) / d * 2 ^ k)
    (hk2 : (p : ℚ) / d * 2 ^ k < 2 ^ 53) : roundPos p d = rneQ ((p : ℚ) / d * 2 ^ k) * 2 ^ (-k) := by
  have hpq : (0 : ℚ) < p := by exact_mod_cast hp
  have hdq : (0 : ℚ) < d := by exact_mod_cast hd
  have hq : (0 : ℚ) < (p : ℚ) / d := div_pos hpq hdq
  set k0 : ℤ := 52 - ((Nat.log2 p : ℤ) - (Nat.log2 d : ℤ)) with hk0
  have lo : ∀ m : ℕ, 0 < m → (2 : ℚ) ^ (Nat.log2 m) ≤ m := fun m hm => by
    exact_mod_cast Nat.log2_self_le hm.ne'
  have hi : ∀ m : ℕ, 0 < m → (m : ℚ) < 2 ^ (Nat.log2 m + 1) := fun m _ => by
    exact_mod_cast Nat.lt_log2_self
  have e0 : (2 : ℚ) ^ k0 = 2 ^ 52 * 2 ^ Nat.log2 d / 2 ^ Nat.log2 p := by
    rw [hk0, show (52 : ℤ) - ((Nat.log2 p : ℤ) - (Nat.log2 d : ℤ)) = ((52 + Nat.log2 d : ℕ) : ℤ) - (Nat.log2 p : ℕ) by
      push_cast; ring, zpow_sub₀ (by norm_num), zpow_natCast, zpow_natCast, pow_add]
  have hPp : (0 : ℚ) < 2 ^ Nat.log2 p := by positivity
  have hPd : (0 : ℚ) < 2 ^ Nat.log2 d := by positivity
  have up : (p : ℚ) / d * 2 ^ k0 < 2 ^ 53 := by
    rw [e0, div_mul_div_comm, div_lt_iff₀ (by positivity)]
    have h1 := hi p hp
    have h2 := lo d hd
    rw [pow_succ] at h1
    have : (p : ℚ) * 2 ^ Nat.log2 d < 2 ^ Nat.log2 p * 2 * d := by
      calc (p : ℚ) * 2 ^ Nat.log2 d < 2 ^ Nat.log2 p * 2 * 2 ^ Nat.log2 d := by
            exact mul_lt_mul_of_pos_right h1 hPd
        _ ≤ _ := mul_le_mul_of_nonneg_left h2 (by positivity)
    calc (p : ℚ) * (2 ^ 52 * 2 ^ Nat.log2 d) = 2 ^ 52 * ((p : ℚ) * 2 ^ Nat.log2 d) := by ring
      _ < 2 ^ 52 * (2 ^ Nat.log2 p * 2 * (d : ℚ)) := by
          exact mul_lt_mul_of_pos_left this (by norm_num)
      _ = _ := by ring
  have dn : (2 : ℚ) ^ 51 < (p : ℚ) / d * 2 ^ k0 := by
    rw [e0, div_mul_div_comm, lt_div_iff₀ (by positivity)]
    have h1 := lo p hp
    have h2 := hi d hd
    rw [pow_succ] at h2
    have : (d : ℚ) * 2 ^ Nat.log2 p < 2 * ((p : ℚ) * 2 ^ Nat.log2 d) := by
      calc (d : ℚ) * 2 ^ Nat.log2 p < 2 ^ Nat.log2 d * 2 * 2 ^ Nat.log2 p := mul_lt_mul_of_pos_right h2 hPp
        _ ≤ 2 ^ Nat.log2 d * 2 * p := mul_le_mul_of_nonneg_left h1 (by positivity)
        _ = _ := by ring
    calc (2 : ℚ) ^ 51 * ((d : ℚ) * 2 ^ Nat.log2 p) < 2 ^ 51 * (2 * ((p : ℚ) * 2 ^ Nat.log2 d)) :=
          mul_lt_mul_of_pos_left this (by norm_num)
      _ = _ := by ring
  set k1 : ℤ := if scaleNum p k0 < 2 ^ 52 * scaleDen d k0 then k0 + 1 else k0 with hk1'
  have hk : k1 = k := by
    have hcond : scaleNum p k0 < 2 ^ 52 * scaleDen d k0 ↔ (p : ℚ) / d * 2 ^ k0 < 2 ^ 52 := by
      rw [← scale_eq, div_lt_iff₀ (by exact_mod_cast scaleDen_pos hd k0)]
      exact_mod_cast Iff.rfl
    apply expo_unique hq _ _ hk1 hk2
    · rw [hk1']
      split_ifs with hc
      · rw [zpow_add_one₀ (by norm_num)]
        have : (2 : ℚ) ^ 52 = 2 ^ 51 * 2 := by norm_num
        linarith
      · rw [hcond, not_lt] at hc
        exact hc
    · rw [hk1']
      split_ifs with hc
      · rw [hcond] at hc
        rw [zpow_add_one₀ (by norm_num)]
        have : (2 : ℚ) ^ 53 = 2 ^ 52 * 2 := by norm_num
        linarith
      · exact up
  unfold roundPos
  dsimp only
  rw [← hk0, ← hk1', hk]
  have hm := divEven_eq (scaleNum p k) (scaleDen d k) (scaleDen_pos hd k)
  rw [scale_eq] at hm
  rw [← hm]
  split_ifs with h
  · obtain ⟨j, rfl⟩ := Int.eq_ofNat_of_zero_le h
    rw [Rat.mkRat_eq_div]
    push_cast
    simp only [Int.toNat_natCast, zpow_neg, zpow_natCast]
    rfl
  · obtain ⟨j, hj⟩ := Int.eq_ofNat_of_zero_le (show 0 ≤ -k by omega)
    rw [Rat.mkRat_eq_div, hj]
    push_cast
    simp only [Int.toNat_natCast, zpow_natCast]
    rw [div_one]

theorem round64_zero : round64 0 = 0 := rfl

theorem round64_neg (q : ℚ) : round64 (-q) = -round64 q := by
  unfold round64
  rw [Rat.num_neg_eq_neg_num, Rat.den_neg_eq_den, Int.natAbs_neg]
  rcases lt_trichotomy q.num 0 with h | h | h
  · rw [if_neg (by omega), if_neg (by omega), if_neg (by omega), if_pos h, neg_neg]
  · simp [h]
  · rw [if_neg (by omega), if_pos (by omega), if_neg (by omega), if_neg (by omega)]

/-- Rounding of a positive number with exponent `-k`. -/
theorem round64_eq {q : ℚ} (hq : 0 < q) {k : ℤ} (hk1 : 2 ^ 52 ≤ q * 2 ^ k) (hk2 : q * 2 ^ k < 2 ^ 53) :
    round64 q = rneQ (q * 2 ^ k) * 2 ^ (-k) := by
  have hnum : 0 < q.num := Rat.num_pos.2 hq
  have hqe : ((q.num.natAbs : ℕ) : ℚ) / q.den = q := by
    have h1 : ((q.num.natAbs : ℕ) : ℚ) = (q.num : ℚ) := by
      have : ((q.num.natAbs : ℕ) : ℤ) = q.num := by omega
      rw [← Int.cast_natCast, this]
    rw [h1, Rat.num_div_den]
  unfold round64
  rw [if_neg (by omega), if_neg (by omega)]
  have := roundPos_eq q.num.natAbs q.den (by omega) q.den_pos (k := k) (by rw [hqe]; exact hk1) (by rw [hqe]; exact hk2)
  rw [this, hqe]

/-- Every positive number has an exponent. -/
theorem exists_expo {q : ℚ} (hq : 0 < q) : ∃ k : ℤ, 2 ^ 52 ≤ q * 2 ^ k ∧ q * 2 ^ k < 2 ^ 53 := by
  obtain ⟨m, h1, h2⟩ := exists_mem_Ico_zpow (x := q) (y := (2 : ℚ)) hq (by norm_num)
  refine ⟨52 - m, ?_, ?_⟩
  · rw [zpow_sub₀ (by norm_num), ← mul_div_assoc, le_div_iff₀ (by positivity)]
    have : (0 : ℚ) < 2 ^ (52 : ℤ) := by positivity
    calc (2 : ℚ) ^ 52 * 2 ^ m ≤ 2 ^ 52 * q := mul_le_mul_of_nonneg_left h1 (by positivity)
      _ = q * 2 ^ (52 : ℤ) := by rw [mul_comm]; rfl
  · rw [zpow_sub₀ (by norm_num), ← mul_div_assoc, div_lt_iff₀ (by positivity)]
    rw [zpow_add_one₀ (by norm_num)] at h2
    calc q * (2 : ℚ) ^ (52 : ℤ) < 2 ^ m * 2 * 2 ^ (52 : ℤ) := mul_lt_mul_of_pos_right h2 (by positivity)
      _ = 2 ^ 53 * 2 ^ m := by
        rw [show ((2 : ℚ) ^ (52 : ℤ)) = 2 ^ 52 from rfl]; ring

/-- The relative error of rounding is at most `2 ^ -53`. -/
theorem round64_err (q : ℚ) : |round64 q - q| ≤ |q| / 2 ^ 53 := by
  have pos : ∀ q : ℚ, 0 < q → |round64 q - q| ≤ q / 2 ^ 53 := by
    intro q hq
    obtain ⟨k, h1, h2⟩ := exists_expo hq
    rw [round64_eq hq h1 h2]
    have he := rneQ_err (q * 2 ^ k)
    have hp : (0 : ℚ) < 2 ^ k := by positivity
    have e : (rneQ (q * 2 ^ k) : ℚ) * 2 ^ (-k) - q = (rneQ (q * 2 ^ k) - q * 2 ^ k) * 2 ^ (-k) := by
      rw [sub_mul, mul_assoc q, zpow_neg, mul_inv_cancel₀ hp.ne', mul_one]
    rw [e, abs_mul, abs_of_pos (show (0 : ℚ) < 2 ^ (-k) by positivity), zpow_neg, ← div_eq_mul_inv,
      div_le_iff₀ hp]
    have : (2 : ℚ) ^ 53 = 2 * 2 ^ 52 := by norm_num
    rw [this]
    rw [div_mul_eq_mul_div, le_div_iff₀ (by norm_num)]
    linarith
  rcases lt_trichotomy q 0 with h | h | h
  · have := pos (-q) (by linarith)
    rw [abs_of_neg h]
    rw [round64_neg, show -round64 q - -q = -(round64 q - q) by ring, abs_neg] at this
    exact this
  · subst h
    simp [round64_zero]
  · rw [abs_of_pos h]
    exact pos q h

/-- Scaling by a power of two is exact. -/
theorem round64_scale (q : ℚ) (j : ℤ) : round64 (2 ^ j * q) = 2 ^ j * round64 q := by
  have hj : (0 : ℚ) < 2 ^ j := by positivity
  have pos : ∀ q : ℚ, 0 < q → round64 (2 ^ j * q) = 2 ^ j * round64 q := by
    intro q hq
    obtain ⟨k, h1, h2⟩ := exists_expo hq
    have e : (2 : ℚ) ^ j * q * 2 ^ (k - j) = q * 2 ^ k := by
      rw [zpow_sub₀ (by norm_num)]
      field_simp
    rw [round64_eq hq h1 h2, round64_eq (k := k - j) (mul_pos hj hq) (by rw [e]; exact h1) (by rw [e]; exact h2), e,
      show -(k - j) = j + -k by ring, zpow_add₀ (by norm_num)]
    ring
  rcases lt_trichotomy q 0 with h | h | h
  · have := pos (-q) (by linarith)
    rw [mul_neg, round64_neg, round64_neg] at this
    linarith
  · subst h
    simp [round64_zero]
  · exact pos q h

/-- Integers up to `2 ^ 53` are not rounded. -/
theorem round64_int (z : ℤ) (hz : |z| ≤ 2 ^ 53) : round64 (z : ℚ) = z := by
  have pos : ∀ z : ℤ, 0 < z → z ≤ 2 ^ 53 → round64 (z : ℚ) = z := by
    intro z h0 h1
    have hz : (0 : ℚ) < (z : ℚ) := by exact_mod_cast h0
    obtain ⟨k, hk1, hk2⟩ := exists_expo hz
    rcases h1.lt_or_eq with h1 | h1
    · have hk : 0 ≤ k := by
        by_contra hlt
        have h3 : (2 : ℚ) ^ k ≤ 2 ^ (-1 : ℤ) := zpow_le_zpow_right₀ (by norm_num) (by omega)
        have h4 : (z : ℚ) * 2 ^ k ≤ z * 2 ^ (-1 : ℤ) := mul_le_mul_of_nonneg_left h3 hz.le
        have h5 : (z : ℚ) < 2 ^ 53 := by exact_mod_cast h1
        have h6 : (2 : ℚ) ^ (-1 : ℤ) = 1 / 2 := by norm_num
        rw [h6] at h4
        have : (2 : ℚ) ^ 53 = 2 * 2 ^ 52 := by norm_num
        linarith
      obtain ⟨j, rfl⟩ := Int.eq_ofNat_of_zero_le hk
      rw [round64_eq hz hk1 hk2]
      have e : (z : ℚ) * 2 ^ (j : ℤ) = ((z * 2 ^ j : ℤ) : ℚ) := by
        push_cast
        rfl
      rw [e, rneQ_int]
      push_cast
      rw [zpow_neg, zpow_natCast]
      field_simp
    · subst h1
      have := round64_eq (q := ((2 ^ 53 : ℤ) : ℚ)) (k := -1) hz (by norm_num) (by norm_num)
      rw [this, show (((2 ^ 53 : ℤ) : ℚ) * 2 ^ (-1 : ℤ)) = ((2 ^ 52 : ℤ) : ℚ) by norm_num, rneQ_int]
      norm_num
  rcases lt_trichotomy z 0 with h | h | h
  · have := pos (-z) (by omega) (by rw [abs_of_neg h] at hz; exact hz)
    push_cast at this
    rw [round64_neg] at this
    linarith
  · subst h
    simp [round64_zero]
  · exact pos z h (by rwa [abs_of_pos h] at hz)

theorem round64_nonneg {q : ℚ} (hq : 0 ≤ q) : 0 ≤ round64 q := by
  have h := abs_le.1 (round64_err q)
  rw [abs_of_nonneg hq] at h
  have : q / 2 ^ 53 ≤ q := div_le_self hq (by norm_num)
  linarith [h.1]

end Dcor

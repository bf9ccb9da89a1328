/-
Rounding with and without limits for the exponent.
-/
import Verif.Model.Float64
import Verif.Proofs.Float

set_option exponentiation.threshold 1100

namespace Dcor

/-! ### Multiples of a power of two -/

/-- `q` is a multiple of `2 ^ -g`. -/
def OnGrid (g : ℤ) (q : ℚ) : Prop := ∃ z : ℤ, q = z * 2 ^ (-g)

theorem OnGrid.zero (g : ℤ) : OnGrid g 0 := ⟨0, by simp⟩

theorem OnGrid.int (z : ℤ) : OnGrid 0 z := ⟨z, by simp⟩

theorem OnGrid.mono {g g' : ℤ} {q : ℚ} (h : OnGrid g q) (hg : g ≤ g') : OnGrid g' q := by
  obtain ⟨z, rfl⟩ := h
  refine ⟨z * 2 ^ (g' - g).toNat, ?_⟩
  push_cast
  rw [mul_assoc, ← zpow_natCast, Int.toNat_of_nonneg (by omega), ← zpow_add₀ (by norm_num)]
  congr 2
  ring

theorem OnGrid.neg {g : ℤ} {q : ℚ} (h : OnGrid g q) : OnGrid g (-q) := by
  obtain ⟨z, rfl⟩ := h
  exact ⟨-z, by push_cast; ring⟩

theorem OnGrid.add {g : ℤ} {q r : ℚ} (h : OnGrid g q) (h' : OnGrid g r) : OnGrid g (q + r) := by
  obtain ⟨z, rfl⟩ := h
  obtain ⟨w, rfl⟩ := h'
  exact ⟨z + w, by push_cast; ring⟩

theorem OnGrid.sub {g : ℤ} {q r : ℚ} (h : OnGrid g q) (h' : OnGrid g r) : OnGrid g (q - r) := by
  rw [sub_eq_add_neg]
  exact h.add h'.neg

theorem OnGrid.mul {g g' : ℤ} {q r : ℚ} (h : OnGrid g q) (h' : OnGrid g' r) : OnGrid (g + g') (q * r) := by
  obtain ⟨z, rfl⟩ := h
  obtain ⟨w, rfl⟩ := h'
  refine ⟨z * w, ?_⟩
  push_cast
  rw [neg_add, zpow_add₀ (by norm_num)]
  ring

/-- Multiples of `2 ^ -g` other than zero are at least `2 ^ -g`. -/
theorem OnGrid.le_abs {g : ℤ} {q : ℚ} (h : OnGrid g q) (hq : q ≠ 0) : 2 ^ (-g) ≤ |q| := by
  obtain ⟨z, rfl⟩ := h
  have hz : z ≠ 0 := by rintro rfl; simp at hq
  rw [abs_mul, abs_of_pos (show (0 : ℚ) < 2 ^ (-g) by positivity)]
  have : (1 : ℚ) ≤ |(z : ℚ)| := by exact_mod_cast Int.one_le_abs hz
  exact le_mul_of_one_le_left (by positivity) this

/-- Rounding keeps lower bounds that are powers of two. -/
theorem round64_ge_pow {j : ℤ} {q : ℚ} (h : 2 ^ j ≤ |q|) : 2 ^ j ≤ |round64 q| := by
  rw [← round64_abs]
  generalize |q| = q at h
  have hj : (0 : ℚ) < 2 ^ j := by positivity
  have hq : 0 < q := hj.trans_le h
  obtain ⟨k, h1, h2⟩ := exists_expo hq
  rw [round64_eq hq h1 h2]
  have e : rneQ ((2 : ℚ) ^ 52) = 2 ^ 52 := by
    have := rneQ_int (2 ^ 52)
    rwa [Int.cast_pow, Int.cast_ofNat] at this
  have l := rneQ_mono h1
  rw [e] at l
  have l' : (2 : ℚ) ^ (52 : ℤ) ≤ rneQ (q * 2 ^ k) := by exact_mod_cast l
  have hjk : j ≤ 52 - k := by
    have : (2 : ℚ) ^ (j + k) < 2 ^ (53 : ℤ) := by
      rw [zpow_add₀ (by norm_num)]
      exact (mul_le_mul_of_nonneg_right h (by positivity)).trans_lt h2
    have := (zpow_lt_zpow_iff_right₀ (by norm_num : (1 : ℚ) < 2)).1 this
    omega
  calc (2 : ℚ) ^ j ≤ 2 ^ (52 - k) := zpow_le_zpow_right₀ (by norm_num) hjk
    _ = 2 ^ (52 : ℤ) * 2 ^ (-k) := by rw [sub_eq_add_neg, zpow_add₀ (by norm_num)]
    _ ≤ _ := mul_le_mul_of_nonneg_right l' (by positivity)

/-- Rounding keeps upper bounds that are powers of two. -/
theorem round64_le_pow {j : ℤ} {q : ℚ} (h : |q| ≤ 2 ^ j) : |round64 q| ≤ 2 ^ j := by
  rw [← round64_abs]
  have hq := abs_nonneg q
  generalize |q| = q at h hq
  rcases hq.eq_or_lt with rfl | hq
  · rw [round64_zero]; positivity
  obtain ⟨k, h1, h2⟩ := exists_expo hq
  rcases h.eq_or_lt with rfl | h
  · have := round64_fixed (m := 1) (k := j) (by norm_num)
    rw [Int.cast_one, one_mul] at this
    exact this.le
  · rw [round64_eq hq h1 h2]
    have e : rneQ ((2 : ℚ) ^ 53) = 2 ^ 53 := by
      have := rneQ_int (2 ^ 53)
      rwa [Int.cast_pow, Int.cast_ofNat] at this
    have u := rneQ_mono h2.le
    rw [e] at u
    have u' : (rneQ (q * 2 ^ k) : ℚ) ≤ 2 ^ (53 : ℤ) := by exact_mod_cast u
    have hjk : 53 - k ≤ j := by
      have : (2 : ℚ) ^ (52 : ℤ) < 2 ^ (j + k) := by
        rw [zpow_add₀ (by norm_num)]
        exact lt_of_le_of_lt h1 (mul_lt_mul_of_pos_right h (by positivity))
      have := (zpow_lt_zpow_iff_right₀ (by norm_num : (1 : ℚ) < 2)).1 this
      omega
    calc _ ≤ (2 : ℚ) ^ (53 : ℤ) * 2 ^ (-k) := mul_le_mul_of_nonneg_right u' (by positivity)
      _ = 2 ^ (53 - k) := by rw [sub_eq_add_neg, zpow_add₀ (by norm_num)]
      _ ≤ _ := zpow_le_zpow_right₀ (by norm_num) hjk

/-- A rounded number that is at least `2 ^ -j` is a multiple of `2 ^ -(j + 52)`. -/
theorem round64_grid {j : ℤ} {q : ℚ} (h : 2 ^ (-j) ≤ |q|) : OnGrid (j + 52) (round64 q) := by
  have pos : ∀ q : ℚ, 0 < q → 2 ^ (-j) ≤ q → OnGrid (j + 52) (round64 q) := by
    intro q hq h
    obtain ⟨k, h1, h2⟩ := exists_expo hq
    rw [round64_eq hq h1 h2]
    refine OnGrid.mono (g := k) ⟨_, rfl⟩ ?_
    have : (2 : ℚ) ^ (-j + k) < 2 ^ (53 : ℤ) := by
      rw [zpow_add₀ (by norm_num)]
      exact (mul_le_mul_of_nonneg_right h (by positivity)).trans_lt h2
    have := (zpow_lt_zpow_iff_right₀ (by norm_num : (1 : ℚ) < 2)).1 this
    omega
  rcases lt_trichotomy q 0 with hq | rfl | hq
  · rw [abs_of_neg hq] at h
    have := (pos (-q) (by linarith) h).neg
    rwa [round64_neg, neg_neg] at this
  · rw [round64_zero]; exact OnGrid.zero _
  · exact pos q hq (by rwa [abs_of_pos hq] at h)

/-- Rounding keeps multiples of powers of two. -/
theorem OnGrid.round {g : ℤ} {q : ℚ} (h : OnGrid g q) : OnGrid g (round64 q) := by
  by_cases hq : |q| ≤ 2 ^ (53 - g)
  · obtain ⟨z, rfl⟩ := h
    have hz : |z| ≤ 2 ^ 53 := by
      rw [abs_mul, abs_of_pos (show (0 : ℚ) < 2 ^ (-g) by positivity), sub_eq_add_neg, zpow_add₀ (by norm_num)] at hq
      have := le_of_mul_le_mul_right hq (by positivity)
      exact_mod_cast this
    rw [round64_fixed hz]
    exact ⟨z, rfl⟩
  · have := round64_grid (j := g - 53) (q := q) (by
      rw [neg_sub]
      exact (not_le.1 hq).le)
    exact this.mono (by omega)

/-! ### Rounding to the format -/

namespace F64

theorem roundTiny_eq (q : ℚ) : ∃ z : ℤ, z = rneQ (|q| * 2 ^ 1074) ∧
    roundTiny q = if q < 0 then -((z : ℚ) / 2 ^ 1074) else (z : ℚ) / 2 ^ 1074 := by
  have hd : (0 : ℚ) < q.den := by exact_mod_cast q.den_pos
  have e : (((q.num.natAbs * 2 ^ 1074 : ℕ) : ℚ) / (q.den : ℚ)) = |q| * 2 ^ 1074 := by
    have : |q| = (q.num.natAbs : ℚ) / q.den := by
      conv_lhs => rw [← Rat.num_div_den q]
      rw [abs_div, abs_of_pos hd, Nat.cast_natAbs, Int.cast_abs]
    rw [this]
    push_cast
    ring
  refine ⟨_, rfl, ?_⟩
  unfold roundTiny
  have := divEven_eq (q.num.natAbs * 2 ^ 1074) q.den q.den_pos
  rw [e] at this
  rw [← this, Rat.mkRat_eq_div, Int.cast_natCast]
  norm_cast

/-- Results that are multiples of `2 ^ -1074`, or not subnormal, are rounded to 53 bits. -/
theorem round_eq {q : ℚ} (h : OnGrid 1074 q ∨ 2 ^ (-1022 : ℤ) ≤ |q|) :
    round q = if 2 ^ 1024 ≤ |round64 q| then inf (decide (round64 q < 0)) else fin (round64 q) := by
  have key : (if |q| < 1 / 2 ^ 1022 then roundTiny q else round64 q) = round64 q := by
    have hz : (2 : ℚ) ^ (-1022 : ℤ) = 1 / 2 ^ 1022 := by rw [zpow_neg, one_div]; rfl
    rw [hz] at h
    split_ifs with hq
    · rcases h with ⟨z, rfl⟩ | h
      · have hp : (0 : ℚ) < 2 ^ (-1074 : ℤ) := by positivity
        have e1 : |(z : ℚ) * 2 ^ (-1074 : ℤ)| * 2 ^ 1074 = ((|z| : ℤ) : ℚ) := by
          rw [abs_mul, abs_of_pos hp, mul_assoc, zpow_neg,
            show (2 : ℚ) ^ (1074 : ℤ) = 2 ^ 1074 from rfl, inv_mul_cancel₀ (by positivity), mul_one, Int.cast_abs]
        have hlt : |z| ≤ 2 ^ 53 := by
          have : ((|z| : ℤ) : ℚ) < 2 ^ 52 := by
            rw [← e1]
            calc _ < 1 / 2 ^ 1022 * (2 : ℚ) ^ 1074 := mul_lt_mul_of_pos_right hq (by positivity)
              _ = 2 ^ 52 := by norm_num
          have : |z| < 2 ^ 52 := by exact_mod_cast this
          omega
        rw [round64_fixed hlt]
        obtain ⟨w, hw, e⟩ := roundTiny_eq ((z : ℚ) * 2 ^ (-1074 : ℤ))
        rw [e1, rneQ_int] at hw
        rw [e, hw, zpow_neg, show (2 : ℚ) ^ (1074 : ℤ) = 2 ^ 1074 from rfl, ← div_eq_mul_inv]
        have hs : (z : ℚ) / 2 ^ 1074 < 0 ↔ z < 0 := by
          rw [div_lt_iff₀ (by positivity), zero_mul]
          exact_mod_cast Iff.rfl
        rcases lt_or_ge z 0 with hz0 | hz0
        · rw [if_pos (hs.2 hz0), abs_of_neg hz0]
          push_cast
          ring
        · rw [if_neg (fun h => absurd (hs.1 h) (not_lt.2 hz0)), abs_of_nonneg hz0]
      · exact absurd hq (not_lt.2 h)
    · rfl
  unfold round
  rw [key]

/-- Results that are at least `2 ^ 1024` overflow. -/
theorem round_big {q : ℚ} (h : 2 ^ 1024 ≤ |q|) : ∃ s, round q = inf s := by
  have h' : (2 : ℚ) ^ (1024 : ℤ) ≤ |q| := h
  rw [round_eq (Or.inr ((zpow_le_zpow_right₀ (by norm_num) (by norm_num)).trans h')),
    if_pos (show (2 : ℚ) ^ 1024 ≤ |round64 q| from round64_ge_pow h')]
  exact ⟨_, rfl⟩

/-- Results of at most `2 ^ -1075` are rounded to zero. -/
theorem round_small {q : ℚ} (h : |q| ≤ 1 / 2 ^ 1075) : round q = fin 0 := by
  have hq : |q| < 1 / 2 ^ 1022 := h.trans_lt (by norm_num)
  obtain ⟨z, hz, e⟩ := roundTiny_eq q
  have hz0 : z = 0 := by
    have h1 : |q| * 2 ^ 1074 ≤ 1 / 2 := by
      calc _ ≤ 1 / 2 ^ 1075 * (2 : ℚ) ^ 1074 := mul_le_mul_of_nonneg_right h (by positivity)
        _ = 1 / 2 := by norm_num
    have h2 := rneQ_mono h1
    have h3 := rneQ_mono (show (0 : ℚ) ≤ |q| * 2 ^ 1074 by positivity)
    have e0 : rneQ 0 = 0 := by decide +kernel
    have e1 : rneQ (1 / 2) = 0 := by decide +kernel
    rw [e0] at h3
    rw [e1] at h2
    omega
  have e' : roundTiny q = 0 := by rw [e, hz0]; simp
  unfold round
  rw [if_pos hq, e']
  simp

end F64

end Dcor

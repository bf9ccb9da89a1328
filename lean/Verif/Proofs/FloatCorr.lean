/-
The quotient computed by `distance_correlation_sqr` in `float64`.
-/
import Verif.Proofs.Float
import Verif.Spec.Dcov

namespace Dcor

variable {sqrt : ℚ → ℚ} {sum : List ℚ → ℚ} {dot : List (ℚ × ℚ) → ℚ}

/-- The denominator is close to the geometric mean of the exact variances. -/
theorem denominator_error (h : IsFloat64 sqrt sum dot) {vx' vy' : ℚ} {vx vy r : ℝ} (hx0 : 0 < vx) (hy0 : 0 < vy)
    (hr : r ≤ 1 / 4) (hx : |(vx' : ℝ) - vx| ≤ r * vx) (hy : |(vy' : ℝ) - vy| ≤ r * vy) :
    (1 - r - 2 / 2 ^ 53) * Real.sqrt (vx * vy)
        ≤ ((binary64 sqrt sum dot).sqrtClip ((binary64 sqrt sum dot).abs ((binary64 sqrt sum dot).mul vx' vy')) : ℝ) ∧
      ((binary64 sqrt sum dot).sqrtClip ((binary64 sqrt sum dot).abs ((binary64 sqrt sum dot).mul vx' vy')) : ℝ)
        ≤ (1 + r + 3 / 2 ^ 53) * Real.sqrt (vx * vy) := by
  have r0 : 0 ≤ r := nonneg_of_mul_nonneg_left ((abs_nonneg _).trans hx) hx0
  obtain ⟨hx1, hx2⟩ := abs_le.1 hx
  obtain ⟨hy1, hy2⟩ := abs_le.1 hy
  have ex1 : (1 - r) * vx ≤ vx' := by linarith
  have ex2 : (vx' : ℝ) ≤ (1 + r) * vx := by linarith
  have ey1 : (1 - r) * vy ≤ vy' := by linarith
  have ey2 : (vy' : ℝ) ≤ (1 + r) * vy := by linarith
  have hr1 : 0 < 1 - r := by linarith
  have px : (0 : ℝ) < vx' := lt_of_lt_of_le (by positivity) ex1
  have py : (0 : ℝ) < vy' := lt_of_lt_of_le (by positivity) ey1
  have e : (binary64 sqrt sum dot).sqrtClip ((binary64 sqrt sum dot).abs ((binary64 sqrt sum dot).mul vx' vy'))
      = sqrt |round64 (vx' * vy')| := by
    have z : (binary64 sqrt sum dot).ofInt 0 = 0 := by show round64 ((0 : ℤ) : ℚ) = 0; decide +kernel
    unfold Arith.sqrtClip
    rw [z, if_neg]
    · rfl
    · show ¬ decide (|round64 (vx' * vy')| < 0) = true
      simp
  rw [e]
  have hP := round64_err (vx' * vy')
  have hP' : |(round64 (vx' * vy') : ℝ) - vx' * vy'| ≤ vx' * vy' / 2 ^ 53 := by
    have := (Rat.cast_le (K := ℝ)).2 hP
    push_cast at this
    rwa [abs_of_pos (mul_pos px py)] at this
  obtain ⟨hP1, hP2⟩ := abs_le.1 hP'
  have hV := mul_pos px py
  have hp : (0 : ℝ) < round64 (vx' * vy') := by
    have : (vx' * vy' : ℝ) / 2 ^ 53 < vx' * vy' := div_lt_self hV (by norm_num)
    linarith
  have hpq : 0 < round64 (vx' * vy') := by exact_mod_cast hp
  rw [abs_of_pos hpq]
  have herr := (h.sqrt _ hpq.le).err
  obtain ⟨hs1, hs2⟩ := abs_le.1 herr
  generalize sqrt (round64 (vx' * vy')) = d at *
  generalize round64 (vx' * vy') = P at *
  obtain ⟨u, hu⟩ : ∃ u : ℝ, u = 1 / 2 ^ 53 := ⟨_, rfl⟩
  have u0 : 0 < u := by rw [hu]; positivity
  have u1 : u ≤ 1 / 100 := by rw [hu]; norm_num
  have dv : ∀ z : ℝ, z / 2 ^ 53 = z * u := fun z => by rw [hu]; ring
  rw [dv] at hP1 hP2 hs1 hs2
  rw [dv 2, dv 3]
  have D0 : 0 < Real.sqrt (vx * vy) := Real.sqrt_pos.2 (mul_pos hx0 hy0)
  have DD : Real.sqrt (vx * vy) * Real.sqrt (vx * vy) = vx * vy := Real.mul_self_sqrt (mul_pos hx0 hy0).le
  generalize Real.sqrt (vx * vy) = D at *
  clear hu dv
  have V1 : (1 - r) ^ 2 * (D * D) ≤ vx' * vy' := by
    rw [DD]
    calc (1 - r) ^ 2 * (vx * vy) = ((1 - r) * vx) * ((1 - r) * vy) := by ring
      _ ≤ vx' * vy' := mul_le_mul ex1 ey1 (by positivity) px.le
  have V2 : (vx' * vy' : ℝ) ≤ (1 + r) ^ 2 * (D * D) := by
    rw [DD]
    calc (vx' * vy' : ℝ) ≤ ((1 + r) * vx) * ((1 + r) * vy) := mul_le_mul ex2 ey2 py.le (by positivity)
      _ = _ := by ring
  have S1 : (1 - r) * (1 - u) * D ≤ Real.sqrt P := by
    apply Real.le_sqrt_of_sq_le
    calc ((1 - r) * (1 - u) * D) ^ 2 = (1 - u) ^ 2 * ((1 - r) ^ 2 * (D * D)) := by ring
      _ ≤ (1 - u) ^ 2 * (vx' * vy') := by gcongr
      _ ≤ (1 - u) * (vx' * vy') := by
          apply mul_le_mul_of_nonneg_right _ hV.le
          nlinarith
      _ ≤ P := by linarith
  have S2 : Real.sqrt P ≤ (1 + r) * (1 + u) * D := by
    apply Real.sqrt_le_iff.2
    refine ⟨by positivity, ?_⟩
    calc (P : ℝ) ≤ (1 + u) * (vx' * vy') := by linarith
      _ ≤ (1 + u) ^ 2 * (vx' * vy') := by
          apply mul_le_mul_of_nonneg_right _ hV.le
          nlinarith
      _ ≤ (1 + u) ^ 2 * ((1 + r) ^ 2 * (D * D)) := by gcongr
      _ = _ := by ring
  constructor
  · calc (1 - r - 2 * u) * D ≤ ((1 - r) * (1 - u) * (1 - u)) * D := by
          apply mul_le_mul_of_nonneg_right _ D0.le
          nlinarith [mul_nonneg r0 u0.le, mul_nonneg hr1.le (sq_nonneg u)]
      _ = (1 - u) * ((1 - r) * (1 - u) * D) := by ring
      _ ≤ (1 - u) * Real.sqrt P := mul_le_mul_of_nonneg_left S1 (by linarith)
      _ ≤ d := by linarith
  · calc (d : ℝ) ≤ (1 + u) * Real.sqrt P := by linarith
      _ ≤ (1 + u) * ((1 + r) * (1 + u) * D) := mul_le_mul_of_nonneg_left S2 (by linarith)
      _ = ((1 + r) * (1 + u) * (1 + u)) * D := by ring
      _ ≤ (1 + r + 3 * u) * D := by
          apply mul_le_mul_of_nonneg_right _ D0.le
          nlinarith [mul_le_mul_of_nonneg_right hr u0.le, mul_le_mul_of_nonneg_right u1 u0.le,
            mul_nonneg r0 (sq_nonneg u), mul_le_mul_of_nonneg_right hr (sq_nonneg u)]

/-- The quotient is close to the exact one, if numerator and denominator are. -/
theorem correlation_error (h : IsFloat64 sqrt sum dot) {c' vx' vy' : ℚ} {c vx vy r : ℝ} (hx0 : 0 < vx) (hy0 : 0 < vy)
    (hr : r ≤ 1 / 4) (hc : |(c' : ℝ) - c| ≤ r * Real.sqrt (vx * vy)) (hx : |(vx' : ℝ) - vx| ≤ r * vx)
    (hy : |(vy' : ℝ) - vy| ≤ r * vy) (hle : |c| ≤ Real.sqrt (vx * vy)) :
    |((if (binary64 sqrt sum dot).eqZero
          ((binary64 sqrt sum dot).sqrtClip ((binary64 sqrt sum dot).abs ((binary64 sqrt sum dot).mul vx' vy'))) = true
        then (binary64 sqrt sum dot).ofInt 0
        else (binary64 sqrt sum dot).div c'
          ((binary64 sqrt sum dot).sqrtClip ((binary64 sqrt sum dot).abs ((binary64 sqrt sum dot).mul vx' vy')))
        : ℚ) : ℝ) - Spec.ratio c vx vy| ≤ 3 * r + 6 / 2 ^ 53 := by
  have r0 : 0 ≤ r := nonneg_of_mul_nonneg_left ((abs_nonneg _).trans hx) hx0
  obtain ⟨h1, h2⟩ := denominator_error h hx0 hy0 hr hx hy
  generalize (binary64 sqrt sum dot).sqrtClip ((binary64 sqrt sum dot).abs ((binary64 sqrt sum dot).mul vx' vy')) = d at *
  have hD0 : 0 < Real.sqrt (vx * vy) := Real.sqrt_pos.2 (mul_pos hx0 hy0)
  have hratio : Spec.ratio c vx vy = c / Real.sqrt (vx * vy) := by
    unfold Spec.ratio
    rw [if_neg (mul_pos hx0 hy0).ne', abs_of_pos (mul_pos hx0 hy0)]
  rw [hratio]
  generalize Real.sqrt (vx * vy) = D at *
  have hd : (0 : ℝ) < d := lt_of_lt_of_le (mul_pos (by norm_num; linarith) hD0) h1
  have hdq : 0 < d := by exact_mod_cast hd
  have z : (binary64 sqrt sum dot).ofInt 0 = 0 := by show round64 ((0 : ℤ) : ℚ) = 0; decide +kernel
  rw [if_neg (by
    unfold Arith.eqZero
    rw [z]
    show ¬ decide (d = 0) = true
    simp [hdq.ne'])]
  show |((round64 (c' / d) : ℚ) : ℝ) - c / D| ≤ _
  have he := (Rat.cast_le (K := ℝ)).2 (round64_err (c' / d))
  push_cast at he
  obtain ⟨u, hu⟩ : ∃ u : ℝ, u = 1 / 2 ^ 53 := ⟨_, rfl⟩
  have u0 : 0 < u := by rw [hu]; positivity
  have u1 : u ≤ 1 / 1000 := by rw [hu]; norm_num
  have dv : ∀ z : ℝ, z / 2 ^ 53 = z * u := fun z => by rw [hu]; ring
  rw [dv] at he h1 h2 ⊢
  generalize round64 (c' / d) = z at *
  clear hu dv
  -- c'/d against c/D
  have k1 : |(c' : ℝ)| ≤ (1 + r) * D := by
    calc |(c' : ℝ)| = |(c' - c) + c| := by ring_nf
      _ ≤ |(c' : ℝ) - c| + |c| := abs_add_le _ _
      _ ≤ r * D + D := add_le_add hc hle
      _ = _ := by ring
  have k2 : |(c' : ℝ) * D - c * d| ≤ (2 * r + 3 * u) * D * D := by
    have hq : |(d : ℝ) - D| ≤ (r + 3 * u) * D := by
      rw [abs_le]; constructor <;> nlinarith [mul_pos u0 hD0]
    calc |(c' : ℝ) * D - c * d| = |(c' - c) * D + c * (D - d)| := by ring_nf
      _ ≤ |((c' : ℝ) - c) * D| + |c * (D - d)| := abs_add_le _ _
      _ = |(c' : ℝ) - c| * D + |c| * |(d : ℝ) - D| := by
          rw [abs_mul, abs_mul, abs_of_pos hD0, abs_sub_comm D]
      _ ≤ r * D * D + D * ((r + 3 * u) * D) := by gcongr
      _ = _ := by ring
  have k3 : |(c' : ℝ) / d - c / D| ≤ (2 * r + 3 * u) * (D / d) := by
    have : (c' : ℝ) / d - c / D = (c' * D - c * d) / (d * D) := by field_simp
    rw [this, abs_div, abs_of_pos (mul_pos hd hD0), div_le_iff₀ (mul_pos hd hD0)]
    calc _ ≤ (2 * r + 3 * u) * D * D := k2
      _ = (2 * r + 3 * u) * (D / d) * (d * D) := by field_simp
  have k4 : D / d ≤ 4 / 3 + 4 * u := by
    rw [div_le_iff₀ hd]
    have : (3 / 4 - 2 * u) * D ≤ d := le_trans (mul_le_mul_of_nonneg_right (by linarith) hD0.le) h1
    calc D ≤ ((4 / 3 + 4 * u) * (3 / 4 - 2 * u)) * D := by
          nlinarith [mul_pos u0 hD0, mul_le_mul_of_nonneg_right u1 (mul_pos u0 hD0).le]
      _ = (4 / 3 + 4 * u) * ((3 / 4 - 2 * u) * D) := by ring
      _ ≤ _ := mul_le_mul_of_nonneg_left this (by positivity)
  have k5 : |(c' : ℝ) / d| ≤ 7 / 4 := by
    rw [abs_div, abs_of_pos hd, div_le_iff₀ hd]
    have : (3 / 4 - 2 * u) * D ≤ d := le_trans (mul_le_mul_of_nonneg_right (by linarith) hD0.le) h1
    nlinarith
  have t1 : |(z : ℝ) - c / D| ≤ |(z : ℝ) - c' / d| + |(c' : ℝ) / d - c / D| := by
    have := abs_add_le ((z : ℝ) - c' / d) ((c' : ℝ) / d - c / D)
    rwa [sub_add_sub_cancel] at this
  have t2 : |(c' : ℝ) / d| * u ≤ 7 / 4 * u := mul_le_mul_of_nonneg_right k5 u0.le
  have t3 : (2 * r + 3 * u) * (D / d) ≤ (2 * r + 3 * u) * (4 / 3 + 4 * u) :=
    mul_le_mul_of_nonneg_left k4 (by positivity)
  have t4 := mul_nonneg r0 u0.le
  have t5 := mul_le_mul_of_nonneg_left u1 r0
  have t6 := mul_le_mul_of_nonneg_right u1 u0.le
  nlinarith

end Dcor

/-
Tails of Student's t-distribution and of the normal distribution.
-/
import Mathlib.Analysis.Complex.ExponentialBounds
import Mathlib.Analysis.Real.Pi.Bounds
import Mathlib.Probability.Distributions.Gaussian.Real
import Verif.Proofs.Student

namespace Dcor.Student

open MeasureTheory Set ProbabilityTheory

variable {ν s t : ℝ}

/-- A bound of the weights for many degrees of freedom. -/
theorem weight_le_of_ge (hν : 100 ≤ ν) (hs : 0 < s) :
    Spec.studentWeight ν s ≤ (5 / 4 : ℝ)⁻¹ ^ 50 * 5 ^ 20 * s ^ (-20 : ℝ) := by
  have hν0 : 0 < ν := by linarith
  have hb : 0 < 1 + s ^ 2 / ν := by positivity
  have h1 : 1 + s ^ 2 / 100 ≤ (1 + s ^ 2 / ν) ^ (ν / 100) := by
    have h := one_add_mul_self_le_rpow_one_add (s := s ^ 2 / ν) (by linarith [div_nonneg (sq_nonneg s) hν0.le])
      (p := ν / 100) (by linarith)
    have e : ν / 100 * (s ^ 2 / ν) = s ^ 2 / 100 := by field_simp
    rwa [e] at h
  have h2 : (5 / 4) ^ 5 * (s / 5) ^ 2 ≤ (1 + s ^ 2 / 100) ^ 5 := by
    have h := one_add_mul_le_pow (a := ((s / 5) ^ 2 - 1) / 5) (by nlinarith [sq_nonneg (s / 5)]) 5
    have e : 1 + s ^ 2 / 100 = 5 / 4 * (1 + ((s / 5) ^ 2 - 1) / 5) := by ring
    rw [e, mul_pow]
    refine mul_le_mul_of_nonneg_left (le_trans (le_of_eq ?_) h) (by positivity)
    push_cast
    ring
  have h3 : (5 / 4 : ℝ) ^ 50 * (s / 5) ^ 20 ≤ (1 + s ^ 2 / ν) ^ ((ν + 1) / 2) := by
    calc (5 / 4 : ℝ) ^ 50 * (s / 5) ^ 20 = ((5 / 4) ^ 5 * (s / 5) ^ 2) ^ 10 := by ring
      _ ≤ ((1 + s ^ 2 / 100) ^ 5) ^ 10 := pow_le_pow_left₀ (by positivity) h2 10
      _ = (1 + s ^ 2 / 100) ^ 50 := by rw [← pow_mul]
      _ ≤ ((1 + s ^ 2 / ν) ^ (ν / 100)) ^ 50 := pow_le_pow_left₀ (by positivity) h1 50
      _ = (1 + s ^ 2 / ν) ^ (ν / 2) := by
        rw [← Real.rpow_natCast, ← Real.rpow_mul hb.le]
        congr 1
        push_cast
        ring
      _ ≤ _ := Real.rpow_le_rpow_of_exponent_le (by linarith [div_nonneg (sq_nonneg s) hν0.le]) (by linarith)
  rw [Spec.studentWeight, neg_div, Real.rpow_neg hb.le, Real.rpow_neg hs.le]
  have e : s ^ (20 : ℝ) = s ^ 20 := by
    rw [← Real.rpow_natCast]
    norm_num
  rw [e]
  calc ((1 + s ^ 2 / ν) ^ ((ν + 1) / 2))⁻¹ ≤ ((5 / 4 : ℝ) ^ 50 * (s / 5) ^ 20)⁻¹ := inv_anti₀ (by positivity) h3
    _ = _ := by
      rw [mul_inv, ← inv_pow, div_pow, inv_div]
      ring

/-- The tail of the t-distribution at 5. -/
theorem tail_five (hν : 100 ≤ ν) : 1 - Spec.studentCdf ν 5 ≤ 1 / 100000 := by
  have hν0 : 0 < ν := by linarith
  have h1 : ∫ s in Ioi (5 : ℝ), Spec.studentWeight ν s
      ≤ ∫ s in Ioi (5 : ℝ), (5 / 4 : ℝ)⁻¹ ^ 50 * 5 ^ 20 * s ^ (-20 : ℝ) :=
    setIntegral_mono_on (integrable_weight hν0).integrableOn
      ((integrableOn_Ioi_rpow_of_lt (by norm_num) (by norm_num)).const_mul _) measurableSet_Ioi
      fun s hs => weight_le_of_ge hν (lt_trans (by norm_num) hs)
  rw [integral_const_mul, integral_Ioi_rpow_of_lt (by norm_num) (by norm_num)] at h1
  have e : -(5 : ℝ) ^ (-20 + 1 : ℝ) / (-20 + 1) = (5 ^ 19)⁻¹ / 19 := by
    rw [show (-20 + 1 : ℝ) = -((19 : ℕ) : ℝ) by norm_num, Real.rpow_neg (by norm_num), Real.rpow_natCast]
    norm_num
  rw [e] at h1
  rw [one_sub_cdf hν0, div_le_iff₀ (total_pos hν0)]
  have h2 := total_ge (show 1 ≤ ν by linarith)
  have h3 : (1 / 3 : ℝ) ≤ Real.exp (-1) := by
    rw [Real.exp_neg, ← one_div]
    exact one_div_le_one_div_of_le (Real.exp_pos 1) (by linarith [Real.exp_one_lt_d9])
  norm_num at h1
  linarith

/-- A normal variable is in these tails with a probability of more than 1/1000. -/
theorem gaussian_five : 1 / 1000 < (gaussianReal 0 1).real {z : ℝ | 1 + Real.sqrt 2 * 5 ≤ z ^ 2} := by
  have hsub : Icc (57 / 20 : ℝ) (10 / 3) ∪ Icc (-(10 / 3) : ℝ) (-(57 / 20)) ⊆ {z : ℝ | 1 + Real.sqrt 2 * 5 ≤ z ^ 2} := by
    have h2 : Real.sqrt 2 ≤ 14245 / 10000 := Real.sqrt_le_left (by norm_num) |>.2 (by norm_num)
    rintro z (hz | hz)
    · show 1 + Real.sqrt 2 * 5 ≤ z ^ 2
      nlinarith [hz.1]
    · show 1 + Real.sqrt 2 * 5 ≤ z ^ 2
      nlinarith [hz.2]
  refine lt_of_lt_of_le ?_ (measureReal_mono hsub)
  have hpdf : ∀ z ∈ Icc (57 / 20 : ℝ) (10 / 3) ∪ Icc (-(10 / 3) : ℝ) (-(57 / 20)), 1 / 900 ≤ gaussianPDFReal 0 1 z := by
    intro z hz
    have hz2 : z ^ 2 ≤ 100 / 9 := by
      rcases hz with hz | hz <;> nlinarith [hz.1, hz.2]
    have h1 : Real.exp (50 / 9) ≤ 300 := by
      refine le_of_pow_le_pow_left₀ (n := 9) (by norm_num) (by norm_num) ?_
      rw [← Real.exp_nat_mul]
      have : ((9 : ℕ) : ℝ) * (50 / 9) = ((50 : ℕ) : ℝ) * 1 := by norm_num
      rw [this, Real.exp_nat_mul]
      exact (pow_le_pow_left₀ (Real.exp_pos 1).le Real.exp_one_lt_d9.le 50).trans (by norm_num)
    have h2 : Real.sqrt (2 * Real.pi) ≤ 251 / 100 :=
      Real.sqrt_le_left (by norm_num) |>.2 (by linarith [Real.pi_lt_d4])
    have h3 : (1 / 300 : ℝ) ≤ Real.exp (-z ^ 2 / 2) := by
      calc (1 / 300 : ℝ) ≤ (Real.exp (50 / 9))⁻¹ := by
            rw [one_div]
            exact inv_anti₀ (Real.exp_pos _) h1
        _ = Real.exp (-(50 / 9)) := (Real.exp_neg _).symm
        _ ≤ _ := Real.exp_le_exp.2 (by linarith)
    have h4 : (100 / 251 : ℝ) ≤ (Real.sqrt (2 * Real.pi))⁻¹ := by
      have := inv_anti₀ (Real.sqrt_pos.2 (by positivity)) h2
      linarith
    have h5 : gaussianPDFReal 0 1 z = (Real.sqrt (2 * Real.pi))⁻¹ * Real.exp (-z ^ 2 / 2) := by
      simp [gaussianPDFReal]
    rw [h5]
    have := mul_le_mul h4 h3 (by norm_num) (by positivity)
    linarith
  rw [Measure.real, gaussianReal_apply_eq_integral 0 one_ne_zero, ENNReal.toReal_ofReal
    (integral_nonneg fun z => gaussianPDFReal_nonneg 0 1 z)]
  have hm : MeasurableSet (Icc (57 / 20 : ℝ) (10 / 3) ∪ Icc (-(10 / 3) : ℝ) (-(57 / 20))) :=
    measurableSet_Icc.union measurableSet_Icc
  have hv : volume.real (Icc (57 / 20 : ℝ) (10 / 3) ∪ Icc (-(10 / 3) : ℝ) (-(57 / 20))) = 29 / 30 := by
    rw [measureReal_union (by
      rw [Set.disjoint_left]
      intro z h1 h2
      linarith [h1.1, h2.2]) measurableSet_Icc measure_Icc_lt_top.ne measure_Icc_lt_top.ne]
    simp [Measure.real]
    norm_num
  have hi := setIntegral_mono_on (μ := volume) (f := fun _ => (1 / 900 : ℝ)) (by simp) (integrable_gaussianPDFReal 0 1).integrableOn
    hm hpdf
  rw [setIntegral_const, hv, smul_eq_mul] at hi
  linarith

end Dcor.Student

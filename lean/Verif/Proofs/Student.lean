/-
Student's t-distribution.
-/
import Mathlib.Analysis.Convex.SpecificFunctions.Basic
import Mathlib.Analysis.SpecialFunctions.ImproperIntegrals
import Mathlib.Analysis.SpecialFunctions.JapaneseBracket
import Mathlib.MeasureTheory.Group.Integral
import Verif.Model.Independence
import Verif.Spec.Student

namespace Dcor

open MeasureTheory Set

variable {ν t s : ℝ}

namespace Student

theorem weight_pos (hν : 0 < ν) (s : ℝ) : 0 < Spec.studentWeight ν s :=
  Real.rpow_pos_of_pos (by positivity) _

theorem weight_neg (ν s : ℝ) : Spec.studentWeight ν (-s) = Spec.studentWeight ν s := by
  rw [Spec.studentWeight, Spec.studentWeight, neg_sq]

theorem integrable_weight (hν : 0 < ν) : Integrable (Spec.studentWeight ν) := by
  have h := integrable_rpow_neg_one_add_norm_sq (E := ℝ) (μ := volume) (r := ν + 1) (by simpa using hν)
  have h1 := h.comp_div (Real.sqrt_pos.2 hν).ne'
  refine h1.congr (ae_of_all _ fun s => ?_)
  beta_reduce
  rw [Spec.studentWeight, norm_div, div_pow, Real.norm_eq_abs, Real.norm_eq_abs, sq_abs, sq_abs, Real.sq_sqrt hν.le]

theorem integral_pos_of (hν : 0 < ν) {A : Set ℝ} (hA : volume A ≠ 0) : 0 < ∫ s in A, Spec.studentWeight ν s := by
  rw [integral_pos_iff_support_of_nonneg (fun s => (weight_pos hν s).le) (integrable_weight hν).integrableOn]
  have : Function.support (Spec.studentWeight ν) = univ := by
    ext s
    simp [(weight_pos hν s).ne']
  rw [this, Measure.restrict_apply_univ]
  exact pos_iff_ne_zero.2 hA

theorem total_pos (hν : 0 < ν) : 0 < ∫ s, Spec.studentWeight ν s := by
  have h := integral_pos_of hν (A := univ) (by simp)
  rwa [setIntegral_univ] at h

theorem add_tail (hν : 0 < ν) (t : ℝ) :
    (∫ s in Iic t, Spec.studentWeight ν s) + ∫ s in Ioi t, Spec.studentWeight ν s = ∫ s, Spec.studentWeight ν s := by
  have h := integral_add_compl (μ := volume) (measurableSet_Iic (a := t)) (integrable_weight hν)
  rwa [compl_Iic] at h

theorem one_sub_cdf (hν : 0 < ν) (t : ℝ) :
    1 - Spec.studentCdf ν t = (∫ s in Ioi t, Spec.studentWeight ν s) / ∫ s, Spec.studentWeight ν s := by
  rw [Spec.studentCdf, eq_div_iff (total_pos hν).ne', sub_mul, div_mul_cancel₀ _ (total_pos hν).ne', one_mul, ← add_tail hν t,
    add_sub_cancel_left]

theorem cdf_strictMono (hν : 0 < ν) : StrictMono (Spec.studentCdf ν) := by
  intro a b hab
  refine div_lt_div_of_pos_right ?_ (total_pos hν)
  have h : Iic b = Iic a ∪ Ioc a b := (Iic_union_Ioc_eq_Iic hab.le).symm
  rw [h, setIntegral_union (by
    rw [Set.disjoint_left]
    intro s h1 h2
    exact absurd h1 (not_le.2 h2.1)) measurableSet_Ioc (integrable_weight hν).integrableOn
    (integrable_weight hν).integrableOn]
  have := integral_pos_of hν (A := Ioc a b) (by simp [hab])
  linarith

theorem cdf_pos (hν : 0 < ν) (t : ℝ) : 0 < Spec.studentCdf ν t :=
  div_pos (integral_pos_of hν (by simp)) (total_pos hν)

theorem cdf_lt_one (hν : 0 < ν) (t : ℝ) : Spec.studentCdf ν t < 1 := by
  have h := one_sub_cdf hν t
  have := div_pos (integral_pos_of hν (A := Ioi t) (by simp)) (total_pos hν)
  linarith

theorem cdf_neg (hν : 0 < ν) (t : ℝ) : Spec.studentCdf ν (-t) = 1 - Spec.studentCdf ν t := by
  rw [one_sub_cdf hν, Spec.studentCdf]
  congr 1
  have h := integral_comp_neg_Ioi (-(-t)) (Spec.studentWeight ν)
  simp only [weight_neg, neg_neg] at h
  exact h.symm

theorem cdf_zero (hν : 0 < ν) : Spec.studentCdf ν 0 = 1 / 2 := by
  have h := cdf_neg hν 0
  rw [neg_zero] at h
  linarith

/-- The weights are at most `2 / s²`, whatever the degrees of freedom. -/
theorem weight_le (hν : 1 ≤ ν) (hs : 0 < s) : Spec.studentWeight ν s ≤ 2 * s ^ (-2 : ℝ) := by
  have hν0 : 0 < ν := by linarith
  have h1 : 0 ≤ s ^ 2 / ν := by positivity
  have h := one_add_mul_self_le_rpow_one_add (s := s ^ 2 / ν) (by linarith) (p := (ν + 1) / 2) (by linarith)
  have h2 : s ^ 2 / 2 ≤ 1 + (ν + 1) / 2 * (s ^ 2 / ν) := by
    have : (ν + 1) / 2 * (s ^ 2 / ν) = s ^ 2 / 2 + s ^ 2 / ν / 2 := by
      field_simp
    rw [this]
    linarith
  rw [Spec.studentWeight, neg_div, Real.rpow_neg (by positivity), Real.rpow_neg hs.le, Real.rpow_two]
  calc _ ≤ (s ^ 2 / 2)⁻¹ := inv_anti₀ (by positivity) (h2.trans h)
    _ = _ := by
      field_simp

/-- The normalising factor is bounded, whatever the degrees of freedom. -/
theorem total_ge (hν : 1 ≤ ν) : 2 * Real.exp (-1) ≤ ∫ s, Spec.studentWeight ν s := by
  have hν0 : 0 < ν := by linarith
  have hw : ∀ s ∈ Icc (-1 : ℝ) 1, Real.exp (-1) ≤ Spec.studentWeight ν s := by
    intro s hs
    have hs2 : s ^ 2 ≤ 1 := by
      rw [sq_le_one_iff_abs_le_one]
      exact abs_le.2 hs
    have h1 : 1 + s ^ 2 / ν ≤ Real.exp (1 / ν) := by
      have := Real.add_one_le_exp (1 / ν)
      have h2 : s ^ 2 / ν ≤ 1 / ν := div_le_div_of_nonneg_right hs2 hν0.le
      linarith
    rw [Spec.studentWeight, neg_div, Real.rpow_neg (by positivity), Real.exp_neg]
    refine inv_anti₀ (Real.rpow_pos_of_pos (by positivity) _) ?_
    calc _ ≤ Real.exp (1 / ν) ^ ((ν + 1) / 2) := Real.rpow_le_rpow (by positivity) h1 (by linarith)
      _ = Real.exp (1 / ν * ((ν + 1) / 2)) := (Real.exp_mul _ _).symm
      _ ≤ Real.exp 1 := by
        refine Real.exp_le_exp.2 ?_
        rw [div_mul_div_comm, one_mul, div_le_one (by positivity)]
        linarith
  have h2 : ∫ _ in Icc (-1 : ℝ) 1, Real.exp (-1) ≤ ∫ s in Icc (-1 : ℝ) 1, Spec.studentWeight ν s :=
    setIntegral_mono_on (by simp) (integrable_weight hν0).integrableOn measurableSet_Icc hw
  have h3 : ∫ s in Icc (-1 : ℝ) 1, Spec.studentWeight ν s ≤ ∫ s, Spec.studentWeight ν s :=
    setIntegral_le_integral (integrable_weight hν0) (ae_of_all _ fun s => (weight_pos hν0 s).le)
  refine le_trans (le_of_eq ?_) (h2.trans h3)
  rw [setIntegral_const]
  simp [Measure.real]
  norm_num

/-- The upper tail is at most `e / t`, whatever the degrees of freedom. -/
theorem tail_le (hν : 1 ≤ ν) (ht : 0 < t) : 1 - Spec.studentCdf ν t ≤ Real.exp 1 / t := by
  have hν0 : 0 < ν := by linarith
  have h1 : ∫ s in Ioi t, Spec.studentWeight ν s ≤ ∫ s in Ioi t, 2 * s ^ (-2 : ℝ) :=
    setIntegral_mono_on (integrable_weight hν0).integrableOn
      ((integrableOn_Ioi_rpow_of_lt (by norm_num) ht).const_mul 2) measurableSet_Ioi
      fun s hs => weight_le hν (ht.trans hs)
  rw [integral_const_mul, integral_Ioi_rpow_of_lt (by norm_num) ht] at h1
  norm_num at h1
  rw [Real.rpow_neg_one] at h1
  rw [one_sub_cdf hν0]
  have h2 := total_ge hν
  calc _ ≤ 2 * t⁻¹ / (2 * Real.exp (-1)) := div_le_div₀ (by positivity) h1 (by positivity) h2
    _ = _ := by
      rw [Real.exp_neg]
      field_simp

end Student

/-- Student's t-distribution as the distribution used by the model of `distance_correlation_t_test`. -/
noncomputable def studentT : StudentT where
  cdf := Spec.studentCdf
  strictMono _ h := Student.cdf_strictMono h
  pos _ h := Student.cdf_pos h
  lt_one _ h := Student.cdf_lt_one h

end Dcor

/-
Student's t-distribution as the distribution of a ratio of normal variables.
-/
import Mathlib.MeasureTheory.Integral.Pi
import Mathlib.MeasureTheory.Measure.Lebesgue.EqHaar
import Mathlib.Probability.Distributions.Gaussian.Real
import Verif.Proofs.Student

namespace Dcor.StudentLaw

open MeasureTheory Set ProbabilityTheory Finset

variable {m : ℕ}

/-- The Euclidean length of a vector. -/
noncomputable def len (w : Fin m → ℝ) : ℝ := Real.sqrt (∑ i, w i ^ 2)

theorem len_nonneg (w : Fin m → ℝ) : 0 ≤ len w := Real.sqrt_nonneg _

theorem len_sq (w : Fin m → ℝ) : len w ^ 2 = ∑ i, w i ^ 2 := Real.sq_sqrt (Finset.sum_nonneg fun _ _ => sq_nonneg _)

theorem len_smul {R : ℝ} (hR : 0 ≤ R) (w : Fin m → ℝ) : len (R • w) = R * len w := by
  unfold len
  simp only [Pi.smul_apply, smul_eq_mul, mul_pow]
  rw [← Finset.mul_sum, Real.sqrt_mul (sq_nonneg R), Real.sqrt_sq hR]

@[fun_prop]
theorem measurable_len : Measurable (len : (Fin m → ℝ) → ℝ) := by
  unfold len
  fun_prop

/-- Independent normal variables. -/
noncomputable abbrev normals (m : ℕ) : Measure (Fin m → ℝ) := Measure.pi fun _ => gaussianReal 0 1

/-- The factor of the density. -/
noncomputable def factor (m : ℕ) : ℝ := ((Real.sqrt (2 * Real.pi))⁻¹) ^ m

theorem prod_pdf (w : Fin m → ℝ) :
    ∏ i, gaussianPDFReal 0 1 (w i) = factor m * Real.exp (-len w ^ 2 / 2) := by
  have h (x : ℝ) : gaussianPDFReal 0 1 x = (Real.sqrt (2 * Real.pi))⁻¹ * Real.exp (-x ^ 2 / 2) := by
    simp [gaussianPDFReal]
  simp only [h]
  rw [Finset.prod_mul_distrib, ← Real.exp_sum, factor, len_sq]
  simp [Finset.sum_div, Finset.sum_neg_distrib, neg_div]

/-- The density of independent normal variables. -/
theorem normals_eq (m : ℕ) :
    normals m = volume.withDensity fun w => ENNReal.ofReal (factor m * Real.exp (-len w ^ 2 / 2)) := by
  refine Measure.pi_eq fun s hs => ?_
  rw [withDensity_apply _ (MeasurableSet.univ_pi hs)]
  simp only [← prod_pdf]
  have h1 : Integrable (fun w : Fin m → ℝ => ∏ i, gaussianPDFReal 0 1 (w i)) :=
    Integrable.fintype_prod fun _ => integrable_gaussianPDFReal 0 1
  rw [← ofReal_integral_eq_lintegral_ofReal h1.integrableOn
    (ae_of_all _ fun w => Finset.prod_nonneg fun i _ => gaussianPDFReal_nonneg 0 1 _), volume_pi, Measure.restrict_pi_pi,
    integral_fintype_prod_eq_prod, ENNReal.ofReal_prod_of_nonneg fun i _ => integral_nonneg fun x => gaussianPDFReal_nonneg 0 1 x]
  exact Finset.prod_congr rfl fun i _ => (gaussianReal_apply_eq_integral 0 one_ne_zero _).symm

/-- An integral over normal variables that depends on a scale as the density of the t-distribution does. -/
theorem scale_integral (hm : 0 < m) : ∃ C : ENNReal, ∀ s : ℝ,
    ∫⁻ w, ENNReal.ofReal (len w / Real.sqrt m * gaussianPDFReal 0 1 (len w / Real.sqrt m * s)) ∂(normals m)
      = ENNReal.ofReal (Spec.studentWeight m s) * C := by
  have hm0 : (0 : ℝ) < m := by exact_mod_cast hm
  obtain ⟨h, hh⟩ : ∃ h : (Fin m → ℝ) → ENNReal, h = fun w => ENNReal.ofReal (factor m * (Real.sqrt (2 * Real.pi))⁻¹ *
    (len w / Real.sqrt m) * Real.exp (-len w ^ 2 / 2)) := ⟨_, rfl⟩
  have mh : Measurable h := by
    rw [hh]
    fun_prop
  refine ⟨∫⁻ w, h w, fun s => ?_⟩
  have hb : 0 < 1 + s ^ 2 / m := by positivity
  obtain ⟨R, hR⟩ : ∃ R, R = Real.sqrt (1 + s ^ 2 / m) := ⟨_, rfl⟩
  have hR0 : 0 < R := hR ▸ Real.sqrt_pos.2 hb
  have hR2 : R ^ 2 = 1 + s ^ 2 / m := by rw [hR, Real.sq_sqrt hb.le]
  have f0 : 0 ≤ factor m := by
    unfold factor
    positivity
  rw [normals_eq, lintegral_withDensity_eq_lintegral_mul _ (by fun_prop) (by
    unfold gaussianPDFReal
    fun_prop)]
  have e (w : Fin m → ℝ) : ENNReal.ofReal (factor m * Real.exp (-len w ^ 2 / 2))
      * ENNReal.ofReal (len w / Real.sqrt m * gaussianPDFReal 0 1 (len w / Real.sqrt m * s))
      = ENNReal.ofReal R⁻¹ * h (R • w) := by
    rw [hh, ← ENNReal.ofReal_mul (by positivity), ← ENNReal.ofReal_mul (by positivity)]
    congr 1
    have h1 : gaussianPDFReal 0 1 (len w / Real.sqrt m * s)
        = (Real.sqrt (2 * Real.pi))⁻¹ * Real.exp (-(len w / Real.sqrt m * s) ^ 2 / 2) := by
      simp [gaussianPDFReal]
    rw [h1, len_smul hR0.le]
    have h2 : Real.exp (-len w ^ 2 / 2) * Real.exp (-(len w / Real.sqrt m * s) ^ 2 / 2)
        = Real.exp (-(R * len w) ^ 2 / 2) := by
      rw [← Real.exp_add]
      congr 1
      rw [mul_pow, mul_pow, div_pow, Real.sq_sqrt hm0.le, hR2]
      field_simp
      ring
    rw [← h2]
    field_simp
  simp only [Pi.mul_apply, e]
  rw [lintegral_const_mul _ (by fun_prop)]
  have h3 : ∫⁻ w, h (R • w) = ENNReal.ofReal (R ^ m)⁻¹ * ∫⁻ w, h w := by
    rw [← lintegral_map (f := h) (g := fun w : Fin m → ℝ => R • w) mh (by fun_prop), Measure.map_addHaar_smul _ hR0.ne',
      lintegral_smul_measure, Module.finrank_fin_fun, abs_of_pos (by positivity), smul_eq_mul]
  rw [h3, ← mul_assoc, ← ENNReal.ofReal_mul (by positivity)]
  congr 2
  rw [Spec.studentWeight, ← hR2, ← Real.rpow_natCast R 2, ← Real.rpow_mul hR0.le, ← mul_inv, ← pow_succ', neg_div, mul_neg,
    Real.rpow_neg hR0.le]
  congr 1
  rw [← Real.rpow_natCast]
  congr 1
  push_cast
  ring

theorem len_pos_ae (hm : 0 < m) : ∀ᵐ w ∂(normals m), 0 < len w := by
  have h0 : NullSingletonClass (gaussianReal 0 1) := nullSingletonClass_gaussianReal one_ne_zero
  have h1 := (measurePreserving_eval (fun _ : Fin m => gaussianReal 0 1) ⟨0, hm⟩).measure_preimage
    (measurableSet_singleton (0 : ℝ)).nullMeasurableSet
  rw [measure_singleton] at h1
  have h2 : ∀ᵐ w ∂(normals m), w ⟨0, hm⟩ ≠ 0 := by
    rw [ae_iff]
    simp only [ne_eq, not_not]
    exact h1
  filter_upwards [h2] with w hw
  refine Real.sqrt_pos.2 ?_
  have := Finset.single_le_sum (f := fun i => w i ^ 2) (fun i _ => sq_nonneg _) (Finset.mem_univ ⟨0, hm⟩)
  exact lt_of_lt_of_le (by positivity) this

theorem gaussian_Ioi {k : ℝ} (hk : 0 < k) (τ : ℝ) :
    gaussianReal 0 1 (Ioi (k * τ)) = ∫⁻ s in Ioi τ, ENNReal.ofReal (k * gaussianPDFReal 0 1 (k * s)) := by
  have hi : Integrable fun s => k * gaussianPDFReal 0 1 (k * s) :=
    ((integrable_gaussianPDFReal 0 1).comp_mul_left' hk.ne').const_mul k
  rw [gaussianReal_apply_eq_integral 0 one_ne_zero, ← ofReal_integral_eq_lintegral_ofReal hi.integrableOn
    (ae_of_all _ fun s => mul_nonneg hk.le (gaussianPDFReal_nonneg 0 1 _)), integral_const_mul,
    integral_comp_mul_left_Ioi _ _ hk, smul_eq_mul, ← mul_assoc, mul_inv_cancel₀ hk.ne', one_mul]

theorem gaussian_Ioi_zero : gaussianReal 0 1 (Ioi 0) = 2⁻¹ := by
  have h0 : NullSingletonClass (gaussianReal 0 1) := nullSingletonClass_gaussianReal one_ne_zero
  have h1 : gaussianReal 0 1 (Iio 0) = gaussianReal 0 1 (Ioi 0) := by
    conv_lhs => rw [← neg_zero, ← gaussianReal_map_neg]
    rw [Measure.map_apply measurable_neg measurableSet_Iio]
    congr 1
    ext x
    simp
  have h2 := prob_add_prob_compl (μ := gaussianReal 0 1) (measurableSet_Ioi (a := (0 : ℝ)))
  rw [compl_Ioi, measure_congr Iio_ae_eq_Iic.symm, h1, ← two_mul] at h2
  exact ENNReal.eq_inv_of_mul_eq_one_left (by rwa [mul_comm])

/-- The ratio of a normal variable and the root mean square of `m` others has the t-distribution. -/
theorem tail_law (hm : 0 < m) (τ : ℝ) :
    ((gaussianReal 0 1).prod (normals m)) {z | len z.2 / Real.sqrt m * τ < z.1}
      = ENNReal.ofReal (1 - Spec.studentCdf m τ) := by
  have hm0 : (0 : ℝ) < m := by exact_mod_cast hm
  obtain ⟨C, hC⟩ := scale_integral hm
  have hF (τ : ℝ) : ((gaussianReal 0 1).prod (normals m)) {z | len z.2 / Real.sqrt m * τ < z.1}
      = ENNReal.ofReal (∫ s in Ioi τ, Spec.studentWeight m s) * C := by
    have mS : MeasurableSet {z : ℝ × (Fin m → ℝ) | len z.2 / Real.sqrt m * τ < z.1} :=
      measurableSet_lt (by fun_prop) measurable_fst
    rw [Measure.prod_apply_symm mS]
    have h1 : ∫⁻ w, gaussianReal 0 1 ((fun x => (x, w)) ⁻¹' {z : ℝ × (Fin m → ℝ) | len z.2 / Real.sqrt m * τ < z.1})
          ∂(normals m)
        = ∫⁻ w, (∫⁻ s in Set.Ioi τ,
            ENNReal.ofReal (len w / Real.sqrt m * gaussianPDFReal 0 1 (len w / Real.sqrt m * s)))
          ∂(normals m) := by
      refine lintegral_congr_ae ?_
      filter_upwards [len_pos_ae hm] with w hw
      rw [← gaussian_Ioi (div_pos hw (Real.sqrt_pos.2 hm0))]
      rfl
    rw [h1, lintegral_lintegral_swap]
    · simp only [hC]
      rw [lintegral_mul_const _ (by
        unfold Spec.studentWeight
        fun_prop), ← ofReal_integral_eq_lintegral_ofReal (Student.integrable_weight hm0).integrableOn
        (ae_of_all _ fun s => (Student.weight_pos hm0 s).le)]
    · refine Measurable.aemeasurable ?_
      unfold Function.uncurry gaussianPDFReal
      fun_prop
  have h0 := hF 0
  have h2 : ((gaussianReal 0 1).prod (normals m)) {z | len z.2 / Real.sqrt m * 0 < z.1} = 2⁻¹ := by
    have : {z : ℝ × (Fin m → ℝ) | len z.2 / Real.sqrt m * 0 < z.1} = Set.Ioi 0 ×ˢ Set.univ := by
      ext z
      simp
    rw [this, Measure.prod_prod, measure_univ, mul_one, gaussian_Ioi_zero]
  rw [h2] at h0
  have ht := Student.total_pos hm0
  have hz := Student.one_sub_cdf hm0 0
  rw [Student.cdf_zero hm0] at hz
  have hI : ∫ s in Ioi (0 : ℝ), Spec.studentWeight m s = (∫ s, Spec.studentWeight m s) / 2 := by
    field_simp at hz
    linarith
  have hCf : C = ENNReal.ofReal (∫ s, Spec.studentWeight m s)⁻¹ := by
    rw [hI] at h0
    have h3 : ENNReal.ofReal ((∫ s, Spec.studentWeight m s) / 2) ≠ 0 := by
      rw [Ne, ENNReal.ofReal_eq_zero, not_le]
      positivity
    have h4 : ENNReal.ofReal ((∫ s, Spec.studentWeight m s) / 2) * ENNReal.ofReal (∫ s, Spec.studentWeight m s)⁻¹ = 2⁻¹ := by
      rw [← ENNReal.ofReal_mul (by positivity)]
      have : (∫ s, Spec.studentWeight m s) / 2 * (∫ s, Spec.studentWeight m s)⁻¹ = 2⁻¹ := by
        field_simp
      rw [this, ENNReal.ofReal_inv_of_pos two_pos]
      simp
    rw [← h4] at h0
    exact ((ENNReal.mul_right_inj h3 ENNReal.ofReal_ne_top).1 h0).symm
  rw [hF, hCf, ← ENNReal.ofReal_mul (integral_nonneg fun s => (Student.weight_pos hm0 s).le), Student.one_sub_cdf hm0]
  rfl

theorem line_null (c : ℝ) : ((gaussianReal 0 1).prod (normals m)) {z | z.1 = len z.2 * c} = 0 := by
  have h0 : NullSingletonClass (gaussianReal 0 1) := nullSingletonClass_gaussianReal one_ne_zero
  have mS : MeasurableSet {z : ℝ × (Fin m → ℝ) | z.1 = len z.2 * c} :=
    measurableSet_eq_fun measurable_fst (by fun_prop)
  rw [Measure.prod_apply_symm mS]
  refine (lintegral_congr fun w => ?_).trans lintegral_zero
  exact measure_singleton (μ := gaussianReal 0 1) (len w * c)

theorem len_cons (u : Fin (m + 1) → ℝ) : len u ^ 2 = u 0 ^ 2 + len (fun j => u j.succ) ^ 2 := by
  rw [len_sq, len_sq, Fin.sum_univ_succ]

/-- The share `u 0 / len u` of the first coordinate, compared with a critical value. -/
theorem share_lt (hm : 0 < m) {τ : ℝ} (hτ : 0 ≤ τ) (u : Fin (m + 1) → ℝ) :
    τ / Real.sqrt (m + τ ^ 2) * len u < u 0 ↔ len (fun j => u j.succ) / Real.sqrt m * τ < u 0 := by
  have hm0 : (0 : ℝ) < m := by exact_mod_cast hm
  have h1 := len_nonneg u
  have h2 := len_nonneg fun j => u j.succ
  have h3 := len_cons u
  generalize len (fun j => u j.succ) = l at h2 h3 ⊢
  generalize len u = L at h1 h3 ⊢
  have hs : 0 < (m : ℝ) + τ ^ 2 := by positivity
  have key : (τ / Real.sqrt (m + τ ^ 2) * L) ^ 2 < u 0 ^ 2 ↔ (l / Real.sqrt m * τ) ^ 2 < u 0 ^ 2 := by
    simp only [mul_pow, div_pow]
    rw [Real.sq_sqrt hs.le, Real.sq_sqrt hm0.le, h3, div_mul_eq_mul_div, div_mul_eq_mul_div, div_lt_iff₀ hs,
      div_lt_iff₀ hm0]
    constructor <;> intro h <;> nlinarith
  have ha : 0 ≤ τ / Real.sqrt (m + τ ^ 2) * L := by positivity
  have hb : 0 ≤ l / Real.sqrt m * τ := by positivity
  constructor
  · intro h
    exact lt_of_pow_lt_pow_left₀ 2 (ha.trans h.le) (key.1 (by gcongr))
  · intro h
    exact lt_of_pow_lt_pow_left₀ 2 (hb.trans h.le) (key.2 (by gcongr))

theorem share_eq (hm : 0 < m) {τ : ℝ} (hτ : 0 ≤ τ) (u : Fin (m + 1) → ℝ) :
    τ / Real.sqrt (m + τ ^ 2) * len u = u 0 → u 0 = len (fun j => u j.succ) * (τ / Real.sqrt m) := by
  intro h
  have hm0 : (0 : ℝ) < m := by exact_mod_cast hm
  have h1 := len_nonneg u
  have h2 := len_nonneg fun j => u j.succ
  have h3 := len_cons u
  generalize len (fun j => u j.succ) = l at h2 h3 ⊢
  generalize len u = L at h h1 h3
  have hs : 0 < (m : ℝ) + τ ^ 2 := by positivity
  have ha : 0 ≤ u 0 := h ▸ (by positivity)
  have hb : 0 ≤ l * (τ / Real.sqrt m) := by positivity
  refine (sq_eq_sq₀ ha hb).1 ?_
  have h4 : (τ / Real.sqrt (m + τ ^ 2) * L) ^ 2 = u 0 ^ 2 := by rw [h]
  simp only [mul_pow, div_pow] at h4 ⊢
  rw [Real.sq_sqrt hs.le, h3] at h4
  rw [Real.sq_sqrt hm0.le]
  field_simp at h4 ⊢
  linarith

theorem split_law : MeasurePreserving (fun u : Fin (m + 1) → ℝ => (u 0, fun j : Fin m => u j.succ))
    (normals (m + 1)) ((gaussianReal 0 1).prod (normals m)) :=
  measurePreserving_piFinSuccAbove (fun _ : Fin (m + 1) => gaussianReal 0 1) 0

theorem share_law (hm : 0 < m) {τ : ℝ} (hτ : 0 ≤ τ) :
    normals (m + 1) {u | τ / Real.sqrt (m + τ ^ 2) * len u < u 0} = ENNReal.ofReal (1 - Spec.studentCdf m τ) := by
  rw [← tail_law hm τ, ← (split_law (m := m)).measure_preimage
    (measurableSet_lt (by fun_prop) measurable_fst).nullMeasurableSet]
  congr 1
  ext u
  exact share_lt hm hτ u

theorem share_null (hm : 0 < m) {τ : ℝ} (hτ : 0 ≤ τ) :
    normals (m + 1) {u | τ / Real.sqrt (m + τ ^ 2) * len u = u 0} = 0 := by
  have h := line_null (m := m) (τ / Real.sqrt m)
  rw [← (split_law (m := m)).measure_preimage
    (measurableSet_eq_fun measurable_fst (by fun_prop)).nullMeasurableSet] at h
  exact measure_mono_null (fun u hu => share_eq hm hτ u hu) h

end Dcor.StudentLaw

/-
Distance covariance and energy distance of sums of independent random vectors.

The characteristic function of a sum is the product of the ones of the summands, and for numbers in the unit disc
`|f g - f' g'| ≤ |f - f'| + |g - g'|`. The root of the distance covariance is the norm of such a difference.
-/
import Verif.Proofs.CharacZero

namespace Dcor

open MeasureTheory ProbabilityTheory Filter Topology Finset Set

namespace Charac

open Consistency (weight weight_nonneg weight_continuous)

/-- The distribution of the sum of two independent random vectors. -/
noncomputable def sumLaw {S : Type*} [MeasurableSpace S] [Add S] (μ₁ μ₂ : Measure S) : Measure S :=
  (μ₁.prod μ₂).map fun r => r.1 + r.2

private theorem addition {S : Type*} [MeasurableSpace S] [Add S] [MeasurableAdd₂ S] {κ : Measure (S × S)} :
    AEMeasurable (fun r : S × S => r.1 + r.2) κ :=
  (measurable_fst.add measurable_snd : Measurable fun r : S × S => r.1 + r.2).aemeasurable

section Features

variable {S T : Type*} [MeasurableSpace S] [MeasurableSpace T] {γ : Measure T} [IsFiniteMeasure γ] {e : T → S → ℂ}
  {k : S → S → ℝ}

theorem integrable_normSq {μ ν : Measure S} [IsProbabilityMeasure μ] [IsProbabilityMeasure ν]
    (he : Measurable fun q : T × S => e q.1 q.2) (he1 : ∀ ζ z, ‖e ζ z‖ = 1) :
    Integrable (fun ζ => Complex.normSq (chr e μ ζ - chr e ν ζ)) γ := by
  have hm : ∀ μ : Measure S, [IsProbabilityMeasure μ] → AEStronglyMeasurable (chr e μ) γ := fun μ _ =>
    (he.stronglyMeasurable.integral_prod_right (ν := μ)).aestronglyMeasurable
  refine (integrable_const (4 : ℝ)).mono' (Complex.continuous_normSq.comp_aestronglyMeasurable ((hm μ).sub (hm ν)))
    (Eventually.of_forall fun ζ => ?_)
  rw [Real.norm_of_nonneg (Complex.normSq_nonneg _), Complex.normSq_eq_norm_sq]
  have h1 := norm_sub_le (chr e μ ζ) (chr e ν ζ)
  have h2 := norm_chr_le (μ := μ) he1 ζ
  have h3 := norm_chr_le (μ := ν) he1 ζ
  nlinarith [norm_nonneg (chr e μ ζ - chr e ν ζ)]

theorem normSq_mul_sub_le {a b c d : ℂ} (hb : ‖b‖ ≤ 1) (hc : ‖c‖ ≤ 1) {s : ℝ} (hs : 0 < s) :
    Complex.normSq (a * b - c * d) ≤ (1 + s) * Complex.normSq (a - c) + (1 + s⁻¹) * Complex.normSq (b - d) := by
  simp only [Complex.normSq_eq_norm_sq]
  have e : a * b - c * d = (a - c) * b + c * (b - d) := by ring
  have h : ‖a * b - c * d‖ ≤ ‖a - c‖ + ‖b - d‖ := by
    rw [e]
    refine (norm_add_le _ _).trans ?_
    rw [norm_mul, norm_mul]
    exact add_le_add (mul_le_of_le_one_right (norm_nonneg _) hb) (mul_le_of_le_one_left (norm_nonneg _) hc)
  have h1 : ‖a * b - c * d‖ ^ 2 ≤ (‖a - c‖ + ‖b - d‖) ^ 2 := pow_le_pow_left₀ (norm_nonneg _) h 2
  have h2 : 0 ≤ s⁻¹ * (s * ‖a - c‖ - ‖b - d‖) ^ 2 := by positivity
  have h3 : s⁻¹ * (s * ‖a - c‖ - ‖b - d‖) ^ 2
      = s * ‖a - c‖ ^ 2 - 2 * ‖a - c‖ * ‖b - d‖ + s⁻¹ * ‖b - d‖ ^ 2 := by
    field_simp
    ring
  nlinarith

/-- If averages of characters multiply, the kernel of the products is bounded by the ones of the factors. -/
theorem comb_mul_le {μ ν μ₁ ν₁ μ₂ ν₂ : Measure S} [IsProbabilityMeasure μ] [IsProbabilityMeasure ν]
    [IsProbabilityMeasure μ₁] [IsProbabilityMeasure ν₁] [IsProbabilityMeasure μ₂] [IsProbabilityMeasure ν₂]
    (he : Measurable fun q : T × S => e q.1 q.2) (he1 : ∀ ζ z, ‖e ζ z‖ = 1)
    (hk : ∀ z z', (k z z' : ℂ) = ∫ ζ, e ζ z * starRingEnd ℂ (e ζ z') ∂γ)
    (hμ : ∀ ζ, chr e μ ζ = chr e μ₁ ζ * chr e μ₂ ζ) (hν : ∀ ζ, chr e ν ζ = chr e ν₁ ζ * chr e ν₂ ζ) {s : ℝ}
    (hs : 0 < s) : comb μ ν k ≤ (1 + s) * comb μ₁ ν₁ k + (1 + s⁻¹) * comb μ₂ ν₂ k := by
  have i0 := integrable_normSq (γ := γ) (μ := μ) (ν := ν) he he1
  have i1 := (integrable_normSq (γ := γ) (μ := μ₁) (ν := ν₁) he he1).const_mul (1 + s)
  have i2 := (integrable_normSq (γ := γ) (μ := μ₂) (ν := ν₂) he he1).const_mul (1 + s⁻¹)
  rw [comb_eq he he1 hk, comb_eq he he1 hk, comb_eq he he1 hk, ← integral_const_mul, ← integral_const_mul,
    ← integral_add i1 i2]
  refine integral_mono i0 (i1.add i2) fun ζ => ?_
  simp only [hμ, hν]
  exact normSq_mul_sub_le (norm_chr_le he1 ζ) (norm_chr_le he1 ζ) hs

omit [MeasurableSpace T] in
theorem chr_sumLaw [Add S] [MeasurableAdd₂ S] {μ₁ μ₂ : Measure S} [IsProbabilityMeasure μ₁] [IsProbabilityMeasure μ₂]
    (hm : ∀ ζ, Measurable (e ζ)) (h : ∀ ζ z w, e ζ (z + w) = e ζ z * e ζ w) (ζ : T) :
    chr e (sumLaw μ₁ μ₂) ζ = chr e μ₁ ζ * chr e μ₂ ζ := by
  rw [chr, sumLaw, integral_map addition (hm ζ).aestronglyMeasurable]
  simp only [h]
  exact integral_prod_mul (e ζ) (e ζ)

end Features

theorem sumLaw_prob {S : Type*} [MeasurableSpace S] [Add S] [MeasurableAdd₂ S] (μ₁ μ₂ : Measure S)
    [IsProbabilityMeasure μ₁] [IsProbabilityMeasure μ₂] : IsProbabilityMeasure (sumLaw μ₁ μ₂) :=
  Measure.isProbabilityMeasure_map addition

/-- The triangle inequality from weighted sums of squares. -/
theorem sqrt_le_of_forall {a b c : ℝ} (ha : 0 ≤ a) (hb : 0 ≤ b) (h : ∀ s : ℝ, 0 < s → c ≤ (1 + s) * a + (1 + s⁻¹) * b) :
    Real.sqrt c ≤ Real.sqrt a + Real.sqrt b := by
  have key : c ≤ (Real.sqrt a + Real.sqrt b) ^ 2 := by
    have e : (Real.sqrt a + Real.sqrt b) ^ 2 = a + b + 2 * (Real.sqrt a * Real.sqrt b) := by
      rw [add_sq, Real.sq_sqrt ha, Real.sq_sqrt hb]
      ring
    rcases ha.eq_or_lt with rfl | ha'
    · rw [e, Real.sqrt_zero]
      refine le_of_forall_pos_le_add fun ε hε => ?_
      have h1 := h ((b + 1) / ε) (by positivity)
      rw [inv_div] at h1
      have h2 : ε / (b + 1) * b ≤ ε := by
        rw [div_mul_eq_mul_div, div_le_iff₀ (by positivity)]
        nlinarith
      nlinarith
    rcases hb.eq_or_lt with rfl | hb'
    · rw [e, Real.sqrt_zero]
      refine le_of_forall_pos_le_add fun ε hε => ?_
      have h1 := h (ε / (a + 1)) (by positivity)
      have h2 : ε / (a + 1) * a ≤ ε := by
        rw [div_mul_eq_mul_div, div_le_iff₀ (by positivity)]
        nlinarith
      nlinarith
    · have sa := Real.sqrt_pos.2 ha'
      have sb := Real.sqrt_pos.2 hb'
      have h1 := h (Real.sqrt b / Real.sqrt a) (by positivity)
      rw [inv_div] at h1
      have h2 : Real.sqrt b / Real.sqrt a * a = Real.sqrt a * Real.sqrt b := by
        rw [div_mul_eq_mul_div, div_eq_iff sa.ne']
        nlinarith [Real.mul_self_sqrt ha]
      have h3 : Real.sqrt a / Real.sqrt b * b = Real.sqrt a * Real.sqrt b := by
        rw [div_mul_eq_mul_div, div_eq_iff sb.ne']
        nlinarith [Real.mul_self_sqrt hb]
      rw [e]
      nlinarith
  rw [← Real.sqrt_sq (by positivity : 0 ≤ Real.sqrt a + Real.sqrt b)]
  exact Real.sqrt_le_sqrt key

theorem char_add {p : ℕ} (t : ℝ) (ζ x y : Fin p → ℝ) : char t ζ (x + y) = char t ζ x * char t ζ y := by
  rw [char, char, char, ← Complex.exp_add, ← mul_add, ← Complex.ofReal_add, ← mul_add]
  congr 4
  simp only [Spec.ip, ← sum_add_distrib, Pi.add_apply, mul_add]

theorem char_zero {p : ℕ} (t : ℝ) (x : Fin p → ℝ) : char t 0 x = 1 := by
  simp [char, Spec.ip]

theorem weight_add {p : ℕ} {α : ℝ} (hα : 0 ≤ α) (x y : Fin p → ℝ) : weight α (x + y) ≤ weight α x * weight α y := by
  unfold weight
  rw [← Real.mul_rpow (by positivity) (by positivity)]
  refine Real.rpow_le_rpow (by positivity) ?_ hα
  have h : ‖Consistency.vec (x + y)‖ ≤ ‖Consistency.vec x‖ + ‖Consistency.vec y‖ := by
    have e : Consistency.vec (x + y) = Consistency.vec x + Consistency.vec y := rfl
    rw [e]
    exact norm_add_le _ _
  nlinarith [norm_nonneg (Consistency.vec x), norm_nonneg (Consistency.vec y)]

theorem dist_le_weight {p : ℕ} {α : ℝ} (hα : 0 ≤ α) (x : Fin p → ℝ) : Spec.dist α x 0 ≤ weight α x := by
  rw [Consistency.dist_zero, weight]
  exact Real.rpow_le_rpow (norm_nonneg _) (by linarith) hα

variable {p q : ℕ} {α : ℝ}

/-! ### Energy distance -/

section Energy

variable {μ₁ μ₂ ν₁ ν₂ : Measure (Fin p → ℝ)} [IsProbabilityMeasure μ₁] [IsProbabilityMeasure μ₂]
  [IsProbabilityMeasure ν₁] [IsProbabilityMeasure ν₂]

theorem integrable_sumLaw (hα : 0 ≤ α) (h₁ : Integrable (fun x => Spec.dist α x 0) μ₁)
    (h₂ : Integrable (fun x => Spec.dist α x 0) μ₂) : Integrable (fun x => Spec.dist α x 0) (sumLaw μ₁ μ₂) := by
  have c : Continuous fun x : Fin p → ℝ => Spec.dist α x 0 := by
    have h := (dist_continuous (p := p) hα).comp (by fun_prop : Continuous fun x : Fin p → ℝ => (x, (0 : Fin p → ℝ)))
    simp only [Function.comp_def] at h
    exact h
  rw [sumLaw, integrable_map_measure c.aestronglyMeasurable addition]
  refine ((Consistency.weight_integrable hα h₁).mul_prod (Consistency.weight_integrable hα h₂)).mono'
    ((c.comp (by fun_prop : Continuous fun r : (Fin p → ℝ) × (Fin p → ℝ) => r.1 + r.2)).aestronglyMeasurable)
    (Eventually.of_forall fun r => ?_)
  rw [Function.comp_apply, Real.norm_of_nonneg (Consistency.dist_nonneg _ _)]
  exact (dist_le_weight hα _).trans (weight_add hα _ _)

theorem energyPop_nonneg' (hα : 0 < α) (hα2 : α < 2) (h₁ : Integrable (fun x => Spec.dist α x 0) μ₁)
    (h₂ : Integrable (fun x => Spec.dist α x 0) ν₁) : 0 ≤ Spec.energyPop α μ₁ ν₁ := by
  have h := (comb_dist hα hα2 h₁ h₂).2
  have hk := Spec.kConst_pos (β := α / 2) (by linarith) (by linarith)
  have : 0 ≤ Spec.kConst (α / 2) * Spec.energyPop α μ₁ ν₁ := by
    rw [h]
    refine setIntegral_nonneg measurableSet_Ioi fun t ht => ?_
    exact mul_nonneg (Real.rpow_nonneg (mem_Ioi.1 ht).le _) (comb_gk_nonneg (mem_Ioi.1 ht).le)
  exact nonneg_of_mul_nonneg_right this hk

/-- The root of the energy distance of sums is at most the sum of the roots for the summands. -/
theorem sqrt_energyPop_sumLaw (hα : 0 < α) (hα2 : α < 2) (h₁ : Integrable (fun x => Spec.dist α x 0) μ₁)
    (h₂ : Integrable (fun x => Spec.dist α x 0) μ₂) (g₁ : Integrable (fun x => Spec.dist α x 0) ν₁)
    (g₂ : Integrable (fun x => Spec.dist α x 0) ν₂) :
    Real.sqrt (Spec.energyPop α (sumLaw μ₁ μ₂) (sumLaw ν₁ ν₂))
      ≤ Real.sqrt (Spec.energyPop α μ₁ ν₁) + Real.sqrt (Spec.energyPop α μ₂ ν₂) := by
  have _ := sumLaw_prob μ₁ μ₂
  have _ := sumLaw_prob ν₁ ν₂
  have hk := Spec.kConst_pos (β := α / 2) (by linarith) (by linarith)
  refine sqrt_le_of_forall (energyPop_nonneg' hα hα2 h₁ g₁) (energyPop_nonneg' hα hα2 h₂ g₂) fun s hs => ?_
  obtain ⟨i0, e0⟩ := comb_dist hα hα2 (integrable_sumLaw hα.le h₁ h₂) (integrable_sumLaw hα.le g₁ g₂)
  obtain ⟨i1, e1⟩ := comb_dist hα hα2 h₁ g₁
  obtain ⟨i2, e2⟩ := comb_dist hα hα2 h₂ g₂
  refine le_of_mul_le_mul_left ?_ hk
  have : Spec.kConst (α / 2) * ((1 + s) * Spec.energyPop α μ₁ ν₁ + (1 + s⁻¹) * Spec.energyPop α μ₂ ν₂)
      = ∫ t in Ioi 0, ((1 + s) * (t ^ (-(α / 2) - 1) * comb μ₁ ν₁ (gk t))
        + (1 + s⁻¹) * (t ^ (-(α / 2) - 1) * comb μ₂ ν₂ (gk t))) := by
    rw [integral_add (i1.const_mul _) (i2.const_mul _), integral_const_mul, integral_const_mul, ← e1, ← e2]
    ring
  rw [this, e0]
  refine setIntegral_mono_on i0 ((i1.const_mul _).add (i2.const_mul _)) measurableSet_Ioi fun t ht => ?_
  have ht0 : 0 ≤ t := (mem_Ioi.1 ht).le
  have hm : ∀ ζ : Fin p → ℝ, Measurable (char t ζ) := fun ζ =>
    ((char_continuous t).comp (by fun_prop : Continuous fun x : Fin p → ℝ => (ζ, x))).measurable
  have := comb_mul_le (γ := gauss p) (k := gk t) (e := char t) (μ := sumLaw μ₁ μ₂) (ν := sumLaw ν₁ ν₂)
    (char_continuous t).measurable (norm_char t) (fun x x' => by rw [gk]; exact gauss_kernel ht0 x x')
    (chr_sumLaw (μ₁ := μ₁) (μ₂ := μ₂) hm (char_add t)) (chr_sumLaw (μ₁ := ν₁) (μ₂ := ν₂) hm (char_add t)) hs
  have h3 := mul_le_mul_of_nonneg_left this (Real.rpow_nonneg ht0 (-(α / 2) - 1))
  refine h3.trans_eq ?_
  ring

end Energy

/-! ### Distance covariance -/

section Dcov

variable {μ₁ μ₂ : Measure ((Fin p → ℝ) × (Fin q → ℝ))} [IsProbabilityMeasure μ₁] [IsProbabilityMeasure μ₂]

theorem char₂_add (s t : ℝ) (ζ z w : (Fin p → ℝ) × (Fin q → ℝ)) :
    char₂ s t ζ (z + w) = char₂ s t ζ z * char₂ s t ζ w := by
  rw [char₂, char₂, char₂, Prod.fst_add, Prod.snd_add, char_add, char_add]
  ring

theorem char₂_measurable (s t : ℝ) (ζ : (Fin p → ℝ) × (Fin q → ℝ)) : Measurable (char₂ s t ζ) :=
  ((char₂_continuous s t).comp (by fun_prop : Continuous fun z : (Fin p → ℝ) × (Fin q → ℝ) => (ζ, z))).measurable

theorem chr_parts (s t : ℝ) (ζ : (Fin p → ℝ) × (Fin q → ℝ)) :
    chr (char₂ s t) (parts μ₁) ζ = chr (char₂ s t) μ₁ (ζ.1, 0) * chr (char₂ s t) μ₁ (0, ζ.2) := by
  have m1 : Measurable (char s ζ.1) :=
    ((char_continuous s).comp (by fun_prop : Continuous fun x : Fin p → ℝ => (ζ.1, x))).measurable
  have m2 : Measurable (char t ζ.2) :=
    ((char_continuous t).comp (by fun_prop : Continuous fun x : Fin q → ℝ => (ζ.2, x))).measurable
  have e1 : chr (char₂ s t) μ₁ (ζ.1, 0) = ∫ x, char s ζ.1 x ∂(μ₁.map Prod.fst) := by
    rw [integral_map measurable_fst.aemeasurable m1.aestronglyMeasurable]
    simp only [chr, char₂, char_zero, mul_one]
  have e2 : chr (char₂ s t) μ₁ (0, ζ.2) = ∫ x, char t ζ.2 x ∂(μ₁.map Prod.snd) := by
    rw [integral_map measurable_snd.aemeasurable m2.aestronglyMeasurable]
    simp only [chr, char₂, char_zero, one_mul]
  rw [e1, e2, ← integral_prod_mul]
  rfl

theorem moments_sumLaw (hα : 0 ≤ α) (h₁ : Spec.Moments α μ₁) (h₂ : Spec.Moments α μ₂) :
    Spec.Moments α (sumLaw μ₁ μ₂) := by
  have c1 : Continuous fun z : (Fin p → ℝ) × (Fin q → ℝ) => Spec.dist α z.1 0 := by
    have h := (dist_continuous (p := p) hα).comp
      (by fun_prop : Continuous fun z : (Fin p → ℝ) × (Fin q → ℝ) => (z.1, (0 : Fin p → ℝ)))
    simp only [Function.comp_def] at h
    exact h
  have c2 : Continuous fun z : (Fin p → ℝ) × (Fin q → ℝ) => Spec.dist α z.2 0 := by
    have h := (dist_continuous (p := q) hα).comp
      (by fun_prop : Continuous fun z : (Fin p → ℝ) × (Fin q → ℝ) => (z.2, (0 : Fin q → ℝ)))
    simp only [Function.comp_def] at h
    exact h
  have c12 : Continuous fun z : (Fin p → ℝ) × (Fin q → ℝ) => Spec.dist α z.1 0 * Spec.dist α z.2 0 := c1.mul c2
  have ca : Continuous fun r : ((Fin p → ℝ) × (Fin q → ℝ)) × ((Fin p → ℝ) × (Fin q → ℝ)) => r.1 + r.2 := by fun_prop
  have ma := addition (S := (Fin p → ℝ) × (Fin q → ℝ)) (κ := μ₁.prod μ₂)
  refine ⟨?_, ?_, ?_⟩
  · rw [sumLaw, integrable_map_measure c1.aestronglyMeasurable ma]
    refine ((Consistency.weight_integrable_fst hα h₁).mul_prod (Consistency.weight_integrable_fst hα h₂)).mono'
      (c1.comp ca).aestronglyMeasurable (Eventually.of_forall fun r => ?_)
    rw [Function.comp_apply, Real.norm_of_nonneg (Consistency.dist_nonneg _ _)]
    exact (dist_le_weight hα _).trans (weight_add hα _ _)
  · rw [sumLaw, integrable_map_measure c2.aestronglyMeasurable ma]
    refine ((Consistency.weight_integrable_snd hα h₁).mul_prod (Consistency.weight_integrable_snd hα h₂)).mono'
      (c2.comp ca).aestronglyMeasurable (Eventually.of_forall fun r => ?_)
    rw [Function.comp_apply, Real.norm_of_nonneg (Consistency.dist_nonneg _ _)]
    exact (dist_le_weight hα _).trans (weight_add hα _ _)
  · rw [sumLaw, integrable_map_measure c12.aestronglyMeasurable ma]
    refine ((Consistency.weight_integrable_prod hα h₁).mul_prod (Consistency.weight_integrable_prod hα h₂)).mono'
      (c12.comp ca).aestronglyMeasurable (Eventually.of_forall fun r => ?_)
    rw [Function.comp_apply, Real.norm_of_nonneg (mul_nonneg (Consistency.dist_nonneg _ _) (Consistency.dist_nonneg _ _)),
      mul_mul_mul_comm]
    exact mul_le_mul ((dist_le_weight hα _).trans (weight_add hα _ _)) ((dist_le_weight hα _).trans (weight_add hα _ _))
      (Consistency.dist_nonneg _ _) (mul_nonneg (weight_nonneg _) (weight_nonneg _))

theorem dcovPop_nonneg' (hα : 0 < α) (hα2 : α < 2) (h₁ : Spec.Moments α μ₁) : 0 ≤ Spec.dcovPop α μ₁ := by
  have h := (comb_dist₂ hα hα2 h₁).2
  have hk := Spec.kConst_pos (β := α / 2) (by linarith) (by linarith)
  have : 0 ≤ Spec.kConst (α / 2) ^ 2 * Spec.dcovPop α μ₁ := by
    rw [h]
    refine integral_nonneg_of_ae ?_
    filter_upwards [quadrant_pos] with τ hτ
    exact mul_nonneg (mul_nonneg (Real.rpow_nonneg hτ.1.le _) (Real.rpow_nonneg hτ.2.le _))
      (comb_gk₂_nonneg hτ.1.le hτ.2.le)
  exact nonneg_of_mul_nonneg_right this (pow_pos hk 2)

/-- The distance covariance of sums of independent pairs is at most the sum of the distance covariances (not squared). -/
theorem sqrt_dcovPop_sumLaw (hα : 0 < α) (hα2 : α < 2) (h₁ : Spec.Moments α μ₁) (h₂ : Spec.Moments α μ₂) :
    Real.sqrt (Spec.dcovPop α (sumLaw μ₁ μ₂)) ≤ Real.sqrt (Spec.dcovPop α μ₁) + Real.sqrt (Spec.dcovPop α μ₂) := by
  have _ := sumLaw_prob μ₁ μ₂
  have hk := Spec.kConst_pos (β := α / 2) (by linarith) (by linarith)
  refine sqrt_le_of_forall (dcovPop_nonneg' hα hα2 h₁) (dcovPop_nonneg' hα hα2 h₂) fun s hs => ?_
  obtain ⟨i0, e0⟩ := comb_dist₂ hα hα2 (moments_sumLaw hα.le h₁ h₂)
  obtain ⟨i1, e1⟩ := comb_dist₂ hα hα2 h₁
  obtain ⟨i2, e2⟩ := comb_dist₂ hα hα2 h₂
  refine le_of_mul_le_mul_left ?_ (pow_pos hk 2)
  have : Spec.kConst (α / 2) ^ 2 * ((1 + s) * Spec.dcovPop α μ₁ + (1 + s⁻¹) * Spec.dcovPop α μ₂)
      = ∫ τ, ((1 + s) * (τ.1 ^ (-(α / 2) - 1) * τ.2 ^ (-(α / 2) - 1) * comb μ₁ (parts μ₁) (gk₂ τ))
        + (1 + s⁻¹) * (τ.1 ^ (-(α / 2) - 1) * τ.2 ^ (-(α / 2) - 1) * comb μ₂ (parts μ₂) (gk₂ τ))) ∂quadrant := by
    rw [integral_add (i1.const_mul _) (i2.const_mul _), integral_const_mul, integral_const_mul, ← e1, ← e2]
    ring
  rw [this, e0]
  refine integral_mono_ae i0 ((i1.const_mul _).add (i2.const_mul _)) ?_
  filter_upwards [quadrant_pos] with τ hτ
  have hc := chr_sumLaw (μ₁ := μ₁) (μ₂ := μ₂) (char₂_measurable τ.1 τ.2) (char₂_add τ.1 τ.2)
  have := comb_mul_le (γ := (gauss p).prod (gauss q)) (k := gk₂ τ) (e := char₂ τ.1 τ.2) (μ := sumLaw μ₁ μ₂)
    (ν := parts (sumLaw μ₁ μ₂)) (ν₁ := parts μ₁) (ν₂ := parts μ₂) (char₂_continuous _ _).measurable (norm_char₂ _ _)
    (char₂_kernel hτ.1.le hτ.2.le) hc (fun ζ => by
      rw [chr_parts, chr_parts, chr_parts, hc, hc]
      ring) hs
  have h3 := mul_le_mul_of_nonneg_left this
    (mul_nonneg (Real.rpow_nonneg hτ.1.le (-(α / 2) - 1)) (Real.rpow_nonneg hτ.2.le (-(α / 2) - 1)))
  refine h3.trans_eq ?_
  ring

end Dcov

end Charac

end Dcor

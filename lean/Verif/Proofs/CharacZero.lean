/-
The distance covariance of a distribution is zero only for independent parts, and the energy distance of two
distributions only if they are equal.
-/
import Verif.Proofs.ConsistencyDcov
import Verif.Proofs.Gauss

namespace Dcor

open MeasureTheory ProbabilityTheory Filter Topology Finset Set

namespace Charac

open Consistency (weight weight_nonneg weight_continuous scaled weight_scaled norm_scaled_le)

variable {p q : ℕ} {α : ℝ}

theorem dist_le (hα : 0 ≤ α) (x x' : Fin p → ℝ) : Spec.dist α x x' ≤ weight α x * weight α x' := by
  rw [← weight_scaled hα x' x]
  refine mul_le_mul_of_nonneg_left ?_ (weight_nonneg x)
  exact ((le_abs_self _).trans ((scaled hα x').norm_coe_le_norm x)).trans (norm_scaled_le hα x')

theorem dist_continuous (hα : 0 ≤ α) : Continuous fun r : (Fin p → ℝ) × (Fin p → ℝ) => Spec.dist α r.1 r.2 := by
  unfold Spec.dist
  exact Continuous.rpow_const (by fun_prop) fun _ => Or.inr hα

theorem sqDist_continuous : Continuous fun r : (Fin p → ℝ) × (Fin p → ℝ) => Spec.sqDist r.1 r.2 := by
  unfold Spec.sqDist
  fun_prop

section Linear

variable {S : Type*} [MeasurableSpace S] {f g h : S → S → ℝ}

theorem integrable_bounded {μ ν : Measure S} [IsProbabilityMeasure μ] [IsProbabilityMeasure ν]
    (hf : Measurable fun r : S × S => f r.1 r.2) (hf1 : ∀ z z', |f z z'| ≤ 1) :
    Integrable (fun r : S × S => f r.1 r.2) (μ.prod ν) :=
  (integrable_const (1 : ℝ)).mono' hf.aestronglyMeasurable (Eventually.of_forall fun r => hf1 r.1 r.2)

theorem double_linear {μ ν : Measure S} [IsProbabilityMeasure μ] [IsProbabilityMeasure ν] (c : ℝ)
    (hf : Measurable fun r : S × S => f r.1 r.2) (hf1 : ∀ z z', |f z z'| ≤ 1)
    (hg : Measurable fun r : S × S => g r.1 r.2) (hg1 : ∀ z z', |g z z'| ≤ 1)
    (hh : Measurable fun r : S × S => h r.1 r.2) (hh1 : ∀ z z', |h z z'| ≤ 1) :
    ∫ z, ∫ z', (1 - f z z' - g z z' + h z z') * c ∂ν ∂μ
      = (1 - (∫ z, ∫ z', f z z' ∂ν ∂μ) - (∫ z, ∫ z', g z z' ∂ν ∂μ) + ∫ z, ∫ z', h z z' ∂ν ∂μ) * c := by
  have if' := integrable_bounded (μ := μ) (ν := ν) hf hf1
  have ig := integrable_bounded (μ := μ) (ν := ν) hg hg1
  have ih := integrable_bounded (μ := μ) (ν := ν) hh hh1
  have i1 : Integrable (fun _ : S × S => (1 : ℝ)) (μ.prod ν) := integrable_const 1
  have e1 : ∫ r : S × S, (1 - f r.1 r.2 - g r.1 r.2 + h r.1 r.2) ∂(μ.prod ν)
      = ∫ r : S × S, (1 - f r.1 r.2 - g r.1 r.2) ∂(μ.prod ν) + ∫ r : S × S, h r.1 r.2 ∂(μ.prod ν) :=
    integral_add ((i1.sub if').sub ig) ih
  have e2 : ∫ r : S × S, (1 - f r.1 r.2 - g r.1 r.2) ∂(μ.prod ν)
      = ∫ r : S × S, (1 - f r.1 r.2) ∂(μ.prod ν) - ∫ r : S × S, g r.1 r.2 ∂(μ.prod ν) :=
    integral_sub (i1.sub if') ig
  have e3 : ∫ r : S × S, (1 - f r.1 r.2) ∂(μ.prod ν)
      = ∫ _ : S × S, (1 : ℝ) ∂(μ.prod ν) - ∫ r : S × S, f r.1 r.2 ∂(μ.prod ν) := integral_sub i1 if'
  have i4 : Integrable (fun r : S × S => (1 - f r.1 r.2 - g r.1 r.2 + h r.1 r.2) * c) (μ.prod ν) :=
    (((i1.sub if').sub ig).add ih).mul_const c
  rw [← integral_prod _ if', ← integral_prod _ ig, ← integral_prod _ ih, ← integral_prod _ i4, integral_mul_const, e1, e2,
    e3]
  simp

theorem comb_linear {μ ν : Measure S} [IsProbabilityMeasure μ] [IsProbabilityMeasure ν] (c : ℝ)
    (hf : Measurable fun r : S × S => f r.1 r.2) (hf1 : ∀ z z', |f z z'| ≤ 1)
    (hg : Measurable fun r : S × S => g r.1 r.2) (hg1 : ∀ z z', |g z z'| ≤ 1)
    (hh : Measurable fun r : S × S => h r.1 r.2) (hh1 : ∀ z z', |h z z'| ≤ 1) :
    comb μ ν (fun z z' => (1 - f z z' - g z z' + h z z') * c) = (comb μ ν h - comb μ ν f - comb μ ν g) * c := by
  unfold comb
  rw [double_linear c hf hf1 hg hg1 hh hh1, double_linear c hf hf1 hg hg1 hh hh1, double_linear c hf hf1 hg hg1 hh hh1]
  ring

theorem comb_const_mul {μ ν : Measure S} (c : ℝ) : comb μ ν (fun z z' => c * f z z') = c * comb μ ν f := by
  unfold comb
  simp only [integral_const_mul]
  ring

theorem comb_self (μ : Measure S) : comb μ μ f = 0 := by
  unfold comb
  ring

end Linear

/-! ### Energy distance -/

section Energy

variable {μ ν : Measure (Fin p → ℝ)} [IsProbabilityMeasure μ] [IsProbabilityMeasure ν]

/-- The Gaussian kernel. -/
noncomputable def gk (t : ℝ) (x x' : Fin p → ℝ) : ℝ := Real.exp (-(t * Spec.sqDist x x'))

theorem gk_continuous (t : ℝ) : Continuous fun r : (Fin p → ℝ) × (Fin p → ℝ) => gk t r.1 r.2 := by
  unfold gk
  have := sqDist_continuous (p := p)
  fun_prop

theorem gk_bounded {t : ℝ} (ht : 0 ≤ t) (x x' : Fin p → ℝ) : |gk t x x'| ≤ 1 := by
  rw [gk, abs_of_pos (Real.exp_pos _), Real.exp_le_one_iff]
  have := mul_nonneg ht (Spec.sqDist_nonneg x x')
  linarith

theorem kern_measurable (β : ℝ) :
    Measurable fun r : ℝ × (Fin p → ℝ) × (Fin p → ℝ) => Spec.kern β (Spec.sqDist r.2.1 r.2.2) r.1 := by
  unfold Spec.kern
  have h := (sqDist_continuous (p := p)).measurable.comp
    (measurable_snd : Measurable fun r : ℝ × (Fin p → ℝ) × (Fin p → ℝ) => r.2)
  have h' : Measurable fun r : ℝ × (Fin p → ℝ) × (Fin p → ℝ) => Spec.sqDist r.2.1 r.2.2 := h
  fun_prop

theorem dist_integrable (hα : 0 ≤ α) (hμ : Integrable (fun x => Spec.dist α x 0) μ)
    (hν : Integrable (fun x => Spec.dist α x 0) ν) :
    Integrable (fun r : (Fin p → ℝ) × (Fin p → ℝ) => Spec.dist α r.1 r.2) (μ.prod ν) := by
  refine ((Consistency.weight_integrable hα hμ).mul_prod (Consistency.weight_integrable hα hν)).mono'
    (dist_continuous hα).aestronglyMeasurable (Eventually.of_forall fun r => ?_)
  rw [Real.norm_of_nonneg (Consistency.dist_nonneg _ _)]
  exact dist_le hα _ _

theorem comb_kern {β t : ℝ} (ht : 0 ≤ t) : comb μ ν (fun x x' => Spec.kern β (Spec.sqDist x x') t)
    = -(t ^ (-β - 1) * comb μ ν (gk t)) := by
  have h := comb_linear (μ := μ) (ν := ν) (t ^ (-β - 1)) (gk_continuous t).measurable (gk_bounded ht)
    (g := fun _ _ => 0) measurable_const (by simp) (h := fun _ _ => 0) measurable_const (by simp)
  have e : comb μ ν (fun _ _ => (0 : ℝ)) = 0 := by simp [comb]
  rw [e] at h
  have e2 : (fun x x' => Spec.kern β (Spec.sqDist x x') t)
      = fun z z' : Fin p → ℝ => (1 - gk t z z' - 0 + 0) * t ^ (-β - 1) := by
    funext x x'
    rw [sub_zero, add_zero]
    rfl
  rw [e2, h]
  ring

theorem comb_gk_nonneg {t : ℝ} (ht : 0 ≤ t) : 0 ≤ comb μ ν (gk t) :=
  comb_nonneg (γ := gauss p) (e := char t) (char_continuous t).measurable (norm_char t) fun x x' => by
    rw [gk]
    exact gauss_kernel ht x x'

theorem eq_of_comb_gk {t : ℝ} (ht : 0 < t) (h : comb μ ν (gk t) = 0) : μ = ν := by
  refine ext_char ht (chr_eq (γ := gauss p) (e := char t) (char_continuous t).measurable (norm_char t) (fun x => ?_)
    (fun x x' => ?_) h)
  · exact (char_continuous t).comp (by fun_prop : Continuous fun ζ : Fin p → ℝ => (ζ, x))
  · rw [gk]
    exact gauss_kernel ht.le x x'

theorem energyPop_eq (α : ℝ) (μ ν : Measure (Fin p → ℝ)) : Spec.energyPop α μ ν = -comb μ ν (Spec.dist α) := by
  unfold Spec.energyPop comb
  ring

instance ioi_neBot : (ae (volume.restrict (Ioi (0 : ℝ)))).NeBot := by
  rw [ae_neBot, Ne, Measure.restrict_eq_zero]
  simp

theorem comb_dist (hα : 0 < α) (hα2 : α < 2) (hμ : Integrable (fun x => Spec.dist α x 0) μ)
    (hν : Integrable (fun x => Spec.dist α x 0) ν) :
    Integrable (fun t => t ^ (-(α / 2) - 1) * comb μ ν (gk t)) (volume.restrict (Ioi 0)) ∧
    Spec.kConst (α / 2) * Spec.energyPop α μ ν = ∫ t in Ioi 0, t ^ (-(α / 2) - 1) * comb μ ν (gk t) := by
  have hD : ∀ x x' : Fin p → ℝ, ∫ t in Ioi 0, Spec.kern (α / 2) (Spec.sqDist x x') t
      = Spec.kConst (α / 2) * Spec.dist α x x' := fun x x' => by
    rw [Spec.integral_kern (by linarith) (Spec.sqDist_nonneg _ _), Spec.dist_eq_sqDist_rpow]
  obtain ⟨h1, h2⟩ := comb_swap (κ := volume.restrict (Ioi (0 : ℝ))) (μ := μ) (ν := ν)
    (K := fun t x x' => Spec.kern (α / 2) (Spec.sqDist x x') t) (D := fun x x' => Spec.kConst (α / 2) * Spec.dist α x x')
    (kern_measurable _)
    (by
      filter_upwards [ae_restrict_mem measurableSet_Ioi] with t ht x x'
      exact Spec.kern_nonneg (Spec.sqDist_nonneg _ _) (mem_Ioi.1 ht).le)
    (fun x x' => Spec.kern_integrable (by linarith) (by linarith) (Spec.sqDist_nonneg _ _)) hD
    ((dist_integrable hα.le hμ hμ).const_mul _) ((dist_integrable hα.le hμ hν).const_mul _)
    ((dist_integrable hα.le hν hν).const_mul _)
  have e : ∀ᵐ t ∂(volume.restrict (Ioi (0 : ℝ))), comb μ ν (fun x x' => Spec.kern (α / 2) (Spec.sqDist x x') t)
      = -(t ^ (-(α / 2) - 1) * comb μ ν (gk t)) := by
    filter_upwards [ae_restrict_mem measurableSet_Ioi] with t ht
    exact comb_kern (mem_Ioi.1 ht).le
  refine ⟨by simpa using (h1.congr e).neg, ?_⟩
  rw [integral_congr_ae e, integral_neg, comb_const_mul] at h2
  rw [energyPop_eq]
  linarith

theorem energyPop_eq_zero (hα : 0 < α) (hα2 : α < 2) (hμ : Integrable (fun x => Spec.dist α x 0) μ)
    (hν : Integrable (fun x => Spec.dist α x 0) ν) : Spec.energyPop α μ ν = 0 ↔ μ = ν := by
  constructor
  · intro h
    obtain ⟨h1, h2⟩ := comb_dist hα hα2 hμ hν
    rw [h, mul_zero] at h2
    have hn : ∀ᵐ t ∂(volume.restrict (Ioi (0 : ℝ))), 0 ≤ t ^ (-(α / 2) - 1) * comb μ ν (gk t) := by
      filter_upwards [ae_restrict_mem measurableSet_Ioi] with t ht
      exact mul_nonneg (Real.rpow_nonneg (mem_Ioi.1 ht).le _) (comb_gk_nonneg (mem_Ioi.1 ht).le)
    have h3 := (integral_eq_zero_iff_of_nonneg_ae hn h1).1 h2.symm
    obtain ⟨t, ht, h4⟩ := (h3.and (ae_restrict_mem measurableSet_Ioi)).exists
    have h5 : (0 : ℝ) < t := mem_Ioi.1 h4
    exact eq_of_comb_gk h5 ((mul_eq_zero.1 ht).resolve_left (Real.rpow_pos_of_pos h5 _).ne')
  · rintro rfl
    rw [energyPop_eq, comb_self, neg_zero]

end Energy

/-! ### Distance covariance -/

section Dcov

variable {μ : Measure ((Fin p → ℝ) × (Fin q → ℝ))} [IsProbabilityMeasure μ]

/-- The distribution of independent parts. -/
noncomputable def parts (μ : Measure ((Fin p → ℝ) × (Fin q → ℝ))) : Measure ((Fin p → ℝ) × (Fin q → ℝ)) :=
  (μ.map Prod.fst).prod (μ.map Prod.snd)

instance : IsProbabilityMeasure (μ.map Prod.fst) := Measure.isProbabilityMeasure_map measurable_fst.aemeasurable

instance : IsProbabilityMeasure (μ.map Prod.snd) := Measure.isProbabilityMeasure_map measurable_snd.aemeasurable

instance : IsProbabilityMeasure (parts μ) := by
  unfold parts
  infer_instance

/-- The product of the distances of the two parts. -/
noncomputable def dist₂ (α : ℝ) (z z' : (Fin p → ℝ) × (Fin q → ℝ)) : ℝ := Spec.dist α z.1 z'.1 * Spec.dist α z.2 z'.2

theorem inner_parts (hα : 0 ≤ α) (z : (Fin p → ℝ) × (Fin q → ℝ)) : ∫ z', dist₂ α z z' ∂(parts μ)
    = (∫ z', Spec.dist α z.1 z'.1 ∂μ) * ∫ z', Spec.dist α z.2 z'.2 ∂μ := by
  have c1 : Measurable fun x' => Spec.dist α z.1 x' :=
    ((dist_continuous hα).comp (by fun_prop : Continuous fun x' : Fin p → ℝ => (z.1, x'))).measurable
  have c2 : Measurable fun x' => Spec.dist α z.2 x' :=
    ((dist_continuous hα).comp (by fun_prop : Continuous fun x' : Fin q → ℝ => (z.2, x'))).measurable
  have e1 : ∫ x', Spec.dist α z.1 x' ∂(μ.map Prod.fst) = ∫ z', Spec.dist α z.1 z'.1 ∂μ :=
    integral_map measurable_fst.aemeasurable c1.aestronglyMeasurable
  have e2 : ∫ x', Spec.dist α z.2 x' ∂(μ.map Prod.snd) = ∫ z', Spec.dist α z.2 z'.2 ∂μ :=
    integral_map measurable_snd.aemeasurable c2.aestronglyMeasurable
  rw [← e1, ← e2, ← integral_prod_mul]
  rfl

theorem outer_parts (hα : 0 ≤ α) : ∫ z, ∫ z', dist₂ α z z' ∂(parts μ) ∂(parts μ)
    = (∫ z, ∫ z', Spec.dist α z.1 z'.1 ∂μ ∂μ) * ∫ z, ∫ z', Spec.dist α z.2 z'.2 ∂μ ∂μ := by
  have m1 : AEStronglyMeasurable (fun x : Fin p → ℝ => ∫ z', Spec.dist α x z'.1 ∂μ) (μ.map Prod.fst) := by
    have : StronglyMeasurable fun r : (Fin p → ℝ) × ((Fin p → ℝ) × (Fin q → ℝ)) => Spec.dist α r.1 r.2.1 :=
      ((dist_continuous hα).comp (by fun_prop : Continuous fun r : (Fin p → ℝ) × ((Fin p → ℝ) × (Fin q → ℝ)) =>
        (r.1, r.2.1))).stronglyMeasurable
    exact (this.integral_prod_right (ν := μ)).aestronglyMeasurable
  have m2 : AEStronglyMeasurable (fun x : Fin q → ℝ => ∫ z', Spec.dist α x z'.2 ∂μ) (μ.map Prod.snd) := by
    have : StronglyMeasurable fun r : (Fin q → ℝ) × ((Fin p → ℝ) × (Fin q → ℝ)) => Spec.dist α r.1 r.2.2 :=
      ((dist_continuous hα).comp (by fun_prop : Continuous fun r : (Fin q → ℝ) × ((Fin p → ℝ) × (Fin q → ℝ)) =>
        (r.1, r.2.2))).stronglyMeasurable
    exact (this.integral_prod_right (ν := μ)).aestronglyMeasurable
  rw [integral_congr_ae (Eventually.of_forall (inner_parts hα)), parts,
    integral_prod_mul (fun x : Fin p → ℝ => ∫ z', Spec.dist α x z'.1 ∂μ) fun x : Fin q → ℝ =>
      ∫ z', Spec.dist α x z'.2 ∂μ, integral_map measurable_fst.aemeasurable m1,
    integral_map measurable_snd.aemeasurable m2]

theorem dcovPop_eq (hα : 0 ≤ α) : Spec.dcovPop α μ = comb μ (parts μ) (dist₂ α) := by
  unfold comb Spec.dcovPop
  rw [outer_parts hα, integral_congr_ae (Eventually.of_forall (inner_parts hα))]
  simp only [dist₂]
  ring

/-- The three expectations of which the distance covariance consists, for independent parts. -/
theorem terms_of_parts (hα : 0 ≤ α) (h : μ = parts μ) :
    ∫ z, ∫ z', Spec.dist α z.1 z'.1 * Spec.dist α z.2 z'.2 ∂μ ∂μ
      = (∫ z, ∫ z', Spec.dist α z.1 z'.1 ∂μ ∂μ) * (∫ z, ∫ z', Spec.dist α z.2 z'.2 ∂μ ∂μ) ∧
    ∫ z, (∫ z', Spec.dist α z.1 z'.1 ∂μ) * (∫ z', Spec.dist α z.2 z'.2 ∂μ) ∂μ
      = (∫ z, ∫ z', Spec.dist α z.1 z'.1 ∂μ ∂μ) * (∫ z, ∫ z', Spec.dist α z.2 z'.2 ∂μ ∂μ) := by
  have h1 := outer_parts (μ := μ) hα
  have h2 := h1
  rw [← h] at h1
  rw [integral_congr_ae (Eventually.of_forall (inner_parts hα)), ← h] at h2
  exact ⟨h1, h2⟩

theorem dist₂_integrable {ν ν' : Measure ((Fin p → ℝ) × (Fin q → ℝ))} [IsProbabilityMeasure ν]
    [IsProbabilityMeasure ν'] (hα : 0 ≤ α) (h : Integrable (fun z => weight α z.1 * weight α z.2) ν)
    (h' : Integrable (fun z => weight α z.1 * weight α z.2) ν') :
    Integrable (fun r : ((Fin p → ℝ) × (Fin q → ℝ)) × ((Fin p → ℝ) × (Fin q → ℝ)) => dist₂ α r.1 r.2) (ν.prod ν') := by
  refine (h.mul_prod h').mono' (Continuous.aestronglyMeasurable ?_) (Eventually.of_forall fun r => ?_)
  · unfold dist₂
    exact ((dist_continuous hα).comp (by fun_prop : Continuous fun r : ((Fin p → ℝ) × (Fin q → ℝ)) ×
      ((Fin p → ℝ) × (Fin q → ℝ)) => (r.1.1, r.2.1))).mul ((dist_continuous hα).comp (by fun_prop :
      Continuous fun r : ((Fin p → ℝ) × (Fin q → ℝ)) × ((Fin p → ℝ) × (Fin q → ℝ)) => (r.1.2, r.2.2)))
  · rw [dist₂, Real.norm_of_nonneg (mul_nonneg (Consistency.dist_nonneg _ _) (Consistency.dist_nonneg _ _)),
      mul_mul_mul_comm]
    exact mul_le_mul (dist_le hα _ _) (dist_le hα _ _) (Consistency.dist_nonneg _ _)
      (mul_nonneg (weight_nonneg _) (weight_nonneg _))

theorem weight_integrable_parts (hα : 0 ≤ α) (hm : Spec.Moments α μ) :
    Integrable (fun z => weight α z.1 * weight α z.2) (parts μ) := by
  have h1 : Integrable (weight α) (μ.map Prod.fst) :=
    (integrable_map_measure (weight_continuous hα).aestronglyMeasurable measurable_fst.aemeasurable).2
      (Consistency.weight_integrable_fst hα hm)
  have h2 : Integrable (weight α) (μ.map Prod.snd) :=
    (integrable_map_measure (weight_continuous hα).aestronglyMeasurable measurable_snd.aemeasurable).2
      (Consistency.weight_integrable_snd hα hm)
  exact h1.mul_prod h2

/-- The product of Gaussian kernels. -/
noncomputable def gk₂ (τ : ℝ × ℝ) (z z' : (Fin p → ℝ) × (Fin q → ℝ)) : ℝ := gk τ.1 z.1 z'.1 * gk τ.2 z.2 z'.2

theorem comb_fst {f : (Fin p → ℝ) → (Fin p → ℝ) → ℝ} (hf : Continuous fun r : (Fin p → ℝ) × (Fin p → ℝ) => f r.1 r.2) :
    comb μ (parts μ) (fun z z' => f z.1 z'.1) = 0 := by
  have hm : (parts μ).map Prod.fst = μ.map Prod.fst := by
    rw [parts, Measure.map_fst_prod]
    simp
  have h : ∀ ν ν' : Measure ((Fin p → ℝ) × (Fin q → ℝ)), [IsProbabilityMeasure ν] → [IsProbabilityMeasure ν'] →
      ∫ z, ∫ z', f z.1 z'.1 ∂ν' ∂ν = ∫ x, ∫ x', f x x' ∂(ν'.map Prod.fst) ∂(ν.map Prod.fst) := by
    intro ν ν' _ _
    rw [integral_map measurable_fst.aemeasurable (hf.stronglyMeasurable.integral_prod_right (ν := ν'.map Prod.fst)).aestronglyMeasurable]
    refine integral_congr_ae (Eventually.of_forall fun z => ?_)
    have c : Continuous fun x' : Fin p → ℝ => f z.1 x' :=
      hf.comp (by fun_prop : Continuous fun x' : Fin p → ℝ => (z.1, x'))
    exact (integral_map measurable_fst.aemeasurable c.aestronglyMeasurable).symm
  unfold comb
  rw [h, h, h, hm]
  ring

theorem comb_snd {f : (Fin q → ℝ) → (Fin q → ℝ) → ℝ} (hf : Continuous fun r : (Fin q → ℝ) × (Fin q → ℝ) => f r.1 r.2) :
    comb μ (parts μ) (fun z z' => f z.2 z'.2) = 0 := by
  have hm : (parts μ).map Prod.snd = μ.map Prod.snd := by
    rw [parts, Measure.map_snd_prod]
    simp
  have h : ∀ ν ν' : Measure ((Fin p → ℝ) × (Fin q → ℝ)), [IsProbabilityMeasure ν] → [IsProbabilityMeasure ν'] →
      ∫ z, ∫ z', f z.2 z'.2 ∂ν' ∂ν = ∫ x, ∫ x', f x x' ∂(ν'.map Prod.snd) ∂(ν.map Prod.snd) := by
    intro ν ν' _ _
    rw [integral_map measurable_snd.aemeasurable (hf.stronglyMeasurable.integral_prod_right (ν := ν'.map Prod.snd)).aestronglyMeasurable]
    refine integral_congr_ae (Eventually.of_forall fun z => ?_)
    have c : Continuous fun x' : Fin q → ℝ => f z.2 x' :=
      hf.comp (by fun_prop : Continuous fun x' : Fin q → ℝ => (z.2, x'))
    exact (integral_map measurable_snd.aemeasurable c.aestronglyMeasurable).symm
  unfold comb
  rw [h, h, h, hm]
  ring

theorem gk_fst_continuous (t : ℝ) :
    Continuous fun r : ((Fin p → ℝ) × (Fin q → ℝ)) × ((Fin p → ℝ) × (Fin q → ℝ)) => gk t r.1.1 r.2.1 := by
  have h := (gk_continuous (p := p) t).comp (by fun_prop : Continuous fun r : ((Fin p → ℝ) × (Fin q → ℝ)) ×
    ((Fin p → ℝ) × (Fin q → ℝ)) => (r.1.1, r.2.1))
  simp only [Function.comp_def] at h
  exact h

theorem gk_snd_continuous (t : ℝ) :
    Continuous fun r : ((Fin p → ℝ) × (Fin q → ℝ)) × ((Fin p → ℝ) × (Fin q → ℝ)) => gk t r.1.2 r.2.2 := by
  have h := (gk_continuous (p := q) t).comp (by fun_prop : Continuous fun r : ((Fin p → ℝ) × (Fin q → ℝ)) ×
    ((Fin p → ℝ) × (Fin q → ℝ)) => (r.1.2, r.2.2))
  simp only [Function.comp_def] at h
  exact h

/-- The product of the integrands of the distances. -/
noncomputable def kern₂ (β : ℝ) (τ : ℝ × ℝ) (z z' : (Fin p → ℝ) × (Fin q → ℝ)) : ℝ :=
  Spec.kern β (Spec.sqDist z.1 z'.1) τ.1 * Spec.kern β (Spec.sqDist z.2 z'.2) τ.2

theorem comb_kern₂ {β : ℝ} {τ : ℝ × ℝ} (h1 : 0 ≤ τ.1) (h2 : 0 ≤ τ.2) : comb μ (parts μ) (kern₂ β τ)
    = τ.1 ^ (-β - 1) * τ.2 ^ (-β - 1) * comb μ (parts μ) (gk₂ τ) := by
  have c1 := gk_fst_continuous (p := p) (q := q) τ.1
  have c2 := gk_snd_continuous (p := p) (q := q) τ.2
  have h := comb_linear (μ := μ) (ν := parts μ) (τ.1 ^ (-β - 1) * τ.2 ^ (-β - 1))
    (f := fun z z' => gk τ.1 z.1 z'.1) c1.measurable (fun z z' => gk_bounded h1 _ _)
    (g := fun z z' => gk τ.2 z.2 z'.2) c2.measurable (fun z z' => gk_bounded h2 _ _)
    (h := gk₂ τ) (c1.mul c2).measurable (fun z z' => by
      rw [gk₂, abs_mul]
      exact mul_le_one₀ (gk_bounded h1 _ _) (abs_nonneg _) (gk_bounded h2 _ _))
  rw [comb_fst (gk_continuous τ.1), comb_snd (gk_continuous τ.2), sub_zero, sub_zero] at h
  have e2 : kern₂ β τ = fun z z' : (Fin p → ℝ) × (Fin q → ℝ) =>
      (1 - gk τ.1 z.1 z'.1 - gk τ.2 z.2 z'.2 + gk₂ τ z z') * (τ.1 ^ (-β - 1) * τ.2 ^ (-β - 1)) := by
    funext z z'
    simp only [kern₂, Spec.kern, gk₂, gk]
    ring
  rw [e2, h]
  ring

theorem char₂_kernel {τ : ℝ × ℝ} (h1 : 0 ≤ τ.1) (h2 : 0 ≤ τ.2) (z z' : (Fin p → ℝ) × (Fin q → ℝ)) :
    (gk₂ τ z z' : ℂ) = ∫ ζ, char₂ τ.1 τ.2 ζ z * starRingEnd ℂ (char₂ τ.1 τ.2 ζ z') ∂((gauss p).prod (gauss q)) := by
  rw [← gauss_kernel₂ h1 h2]
  rfl

theorem comb_gk₂_nonneg {τ : ℝ × ℝ} (h1 : 0 ≤ τ.1) (h2 : 0 ≤ τ.2) : 0 ≤ comb μ (parts μ) (gk₂ τ) :=
  comb_nonneg (γ := (gauss p).prod (gauss q)) (e := char₂ τ.1 τ.2) (char₂_continuous _ _).measurable (norm_char₂ _ _)
    (char₂_kernel h1 h2)

theorem eq_of_comb_gk₂ {τ : ℝ × ℝ} (h1 : 0 < τ.1) (h2 : 0 < τ.2) (h : comb μ (parts μ) (gk₂ τ) = 0) : μ = parts μ := by
  refine ext_char₂ h1 h2 (chr_eq (γ := (gauss p).prod (gauss q)) (e := char₂ τ.1 τ.2)
    (char₂_continuous _ _).measurable (norm_char₂ _ _) (fun z => ?_) (char₂_kernel h1.le h2.le) h)
  have h := (char₂_continuous τ.1 τ.2).comp (by fun_prop : Continuous fun ζ : (Fin p → ℝ) × (Fin q → ℝ) => (ζ, z))
  simp only [Function.comp_def] at h
  exact h

/-- The pairs of positive numbers. -/
noncomputable def quadrant : Measure (ℝ × ℝ) := (volume.restrict (Ioi 0)).prod (volume.restrict (Ioi 0))

instance : SFinite quadrant := by
  unfold quadrant
  infer_instance

theorem quadrant_pos : ∀ᵐ τ ∂quadrant, 0 < τ.1 ∧ 0 < τ.2 := by
  rw [quadrant, Measure.prod_restrict]
  filter_upwards [ae_restrict_mem (measurableSet_Ioi.prod measurableSet_Ioi)] with τ hτ
  exact ⟨hτ.1, hτ.2⟩

instance quadrant_neBot : (ae quadrant).NeBot := by
  rw [quadrant, Measure.prod_restrict, ae_neBot, Ne, Measure.restrict_eq_zero, Measure.prod_prod]
  simp

theorem comb_dist₂ (hα : 0 < α) (hα2 : α < 2) (hm : Spec.Moments α μ) :
    Integrable (fun τ => τ.1 ^ (-(α / 2) - 1) * τ.2 ^ (-(α / 2) - 1) * comb μ (parts μ) (gk₂ τ)) quadrant ∧
    Spec.kConst (α / 2) ^ 2 * Spec.dcovPop α μ
      = ∫ τ, τ.1 ^ (-(α / 2) - 1) * τ.2 ^ (-(α / 2) - 1) * comb μ (parts μ) (gk₂ τ) ∂quadrant := by
  have hD : ∀ z z' : (Fin p → ℝ) × (Fin q → ℝ), ∫ τ, kern₂ (α / 2) τ z z' ∂quadrant
      = Spec.kConst (α / 2) ^ 2 * dist₂ α z z' := fun z z' => by
    rw [dist₂, Spec.dist_eq_sqDist_rpow, Spec.dist_eq_sqDist_rpow, quadrant]
    unfold kern₂
    rw [integral_prod_mul, Spec.integral_kern (by linarith) (Spec.sqDist_nonneg _ _),
      Spec.integral_kern (by linarith) (Spec.sqDist_nonneg _ _)]
    ring
  have i1 := Consistency.weight_integrable_prod hα.le hm
  have i2 := weight_integrable_parts hα.le hm
  have hK : Measurable fun r : (ℝ × ℝ) × ((Fin p → ℝ) × (Fin q → ℝ)) × ((Fin p → ℝ) × (Fin q → ℝ)) =>
      kern₂ (α / 2) r.1 r.2.1 r.2.2 := by
    unfold kern₂
    exact ((kern_measurable (α / 2)).comp (by fun_prop : Measurable fun r : (ℝ × ℝ) ×
      ((Fin p → ℝ) × (Fin q → ℝ)) × ((Fin p → ℝ) × (Fin q → ℝ)) => (r.1.1, r.2.1.1, r.2.2.1))).mul
      ((kern_measurable (α / 2)).comp (by fun_prop : Measurable fun r : (ℝ × ℝ) ×
      ((Fin p → ℝ) × (Fin q → ℝ)) × ((Fin p → ℝ) × (Fin q → ℝ)) => (r.1.2, r.2.1.2, r.2.2.2)))
  obtain ⟨h1, h2⟩ := comb_swap (κ := quadrant) (μ := μ) (ν := parts μ)
    (D := fun z z' => Spec.kConst (α / 2) ^ 2 * dist₂ α z z') hK
    (by
      filter_upwards [quadrant_pos] with τ hτ z z'
      exact mul_nonneg (Spec.kern_nonneg (Spec.sqDist_nonneg _ _) hτ.1.le)
        (Spec.kern_nonneg (Spec.sqDist_nonneg _ _) hτ.2.le))
    (fun z z' => Integrable.mul_prod (Spec.kern_integrable (by linarith) (by linarith) (Spec.sqDist_nonneg _ _))
      (Spec.kern_integrable (by linarith) (by linarith) (Spec.sqDist_nonneg _ _))) hD
    ((dist₂_integrable hα.le i1 i1).const_mul (Spec.kConst (α / 2) ^ 2)) ((dist₂_integrable hα.le i1 i2).const_mul _)
    ((dist₂_integrable hα.le i2 i2).const_mul _)
  have e : ∀ᵐ τ ∂quadrant, comb μ (parts μ) (kern₂ (α / 2) τ)
      = τ.1 ^ (-(α / 2) - 1) * τ.2 ^ (-(α / 2) - 1) * comb μ (parts μ) (gk₂ τ) := by
    filter_upwards [quadrant_pos] with τ hτ
    exact comb_kern₂ hτ.1.le hτ.2.le
  refine ⟨h1.congr e, ?_⟩
  rw [integral_congr_ae e, comb_const_mul] at h2
  rw [dcovPop_eq hα.le, h2]

theorem dcovPop_eq_zero (hα : 0 < α) (hα2 : α < 2) (hm : Spec.Moments α μ) :
    Spec.dcovPop α μ = 0 ↔ μ = parts μ := by
  constructor
  · intro h
    obtain ⟨h1, h2⟩ := comb_dist₂ hα hα2 hm
    rw [h, mul_zero] at h2
    have hn : ∀ᵐ τ ∂quadrant, 0 ≤ τ.1 ^ (-(α / 2) - 1) * τ.2 ^ (-(α / 2) - 1) * comb μ (parts μ) (gk₂ τ) := by
      filter_upwards [quadrant_pos] with τ hτ
      exact mul_nonneg (mul_nonneg (Real.rpow_nonneg hτ.1.le _) (Real.rpow_nonneg hτ.2.le _))
        (comb_gk₂_nonneg hτ.1.le hτ.2.le)
    have h3 := (integral_eq_zero_iff_of_nonneg_ae hn h1).1 h2.symm
    obtain ⟨τ, ht, h4, h5⟩ := (h3.and quadrant_pos).exists
    refine eq_of_comb_gk₂ h4 h5 ((mul_eq_zero.1 ht).resolve_left (mul_pos ?_ ?_).ne')
    · exact Real.rpow_pos_of_pos h4 _
    · exact Real.rpow_pos_of_pos h5 _
  · intro h
    rw [dcovPop_eq hα.le, ← h, comb_self]

theorem parts_iff : μ = parts μ ↔ IndepFun Prod.fst Prod.snd μ := by
  rw [indepFun_iff_map_prod_eq_prod_map_map measurable_fst.aemeasurable measurable_snd.aemeasurable]
  have : μ.map (fun z : (Fin p → ℝ) × (Fin q → ℝ) => (z.1, z.2)) = μ := Measure.map_id
  rw [this]
  rfl

end Dcov

end Charac

end Dcor

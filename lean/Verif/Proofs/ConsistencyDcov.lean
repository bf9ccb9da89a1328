/-
Samples of a distribution: the statistics of the distances converge to the ones of the distribution.
-/
import Mathlib.Analysis.InnerProductSpace.PiL2
import Verif.Proofs.Consistency
import Verif.Proofs.FromTerms
import Verif.Spec.Energy

namespace Dcor

open MeasureTheory ProbabilityTheory Filter Topology BoundedContinuousFunction Finset

namespace Consistency

section Vectors

variable {p : ℕ} {α : ℝ}

/-- A vector with its Euclidean norm. -/
abbrev vec (x : Fin p → ℝ) : EuclideanSpace ℝ (Fin p) := WithLp.toLp 2 x

theorem vec_continuous : Continuous (vec : (Fin p → ℝ) → _) := PiLp.continuous_toLp 2 _

theorem dist_eq (x y : Fin p → ℝ) : Spec.dist α x y = ‖vec x - vec y‖ ^ α := by
  rw [Spec.dist, EuclideanSpace.norm_eq]
  simp

theorem dist_zero (x : Fin p → ℝ) : Spec.dist α x 0 = ‖vec x‖ ^ α := by
  rw [dist_eq]
  simp [vec]

theorem dist_nonneg (x y : Fin p → ℝ) : 0 ≤ Spec.dist α x y := Real.rpow_nonneg (Real.sqrt_nonneg _) α

/-- One plus the norm, to the power `α`. -/
noncomputable def weight (α : ℝ) (x : Fin p → ℝ) : ℝ := (1 + ‖vec x‖) ^ α

theorem weight_nonneg (x : Fin p → ℝ) : 0 ≤ weight α x := Real.rpow_nonneg (by positivity) α

theorem weight_continuous (hα : 0 ≤ α) : Continuous (weight α : (Fin p → ℝ) → ℝ) :=
  ((continuous_const.add vec_continuous.norm).rpow_const fun _ => Or.inr hα)

theorem weight_le (hα : 0 ≤ α) (x : Fin p → ℝ) : weight α x ≤ 2 ^ α * (1 + Spec.dist α x 0) := by
  rw [dist_zero, weight]
  have h0 := norm_nonneg (vec x)
  have hr : 0 ≤ ‖vec x‖ ^ α := Real.rpow_nonneg h0 α
  have h2 : 0 ≤ (2 : ℝ) ^ α := Real.rpow_nonneg (by norm_num) α
  rcases le_total ‖vec x‖ 1 with h | h
  · have : (1 + ‖vec x‖) ^ α ≤ 2 ^ α := Real.rpow_le_rpow (by linarith) (by linarith) hα
    nlinarith [mul_nonneg h2 hr]
  · have : (1 + ‖vec x‖) ^ α ≤ (2 * ‖vec x‖) ^ α := Real.rpow_le_rpow (by linarith) (by linarith) hα
    rw [Real.mul_rpow (by norm_num) h0] at this
    nlinarith

/-- The distance to `x'` divided by the weight. -/
noncomputable def scaled (hα : 0 ≤ α) (x' : Fin p → ℝ) : (Fin p → ℝ) →ᵇ ℝ :=
  (kernel hα (vec x')).compContinuous ⟨vec, vec_continuous⟩

theorem weight_scaled (hα : 0 ≤ α) (x' x : Fin p → ℝ) : weight α x * scaled hα x' x = Spec.dist α x x' := by
  rw [dist_eq, ← kernel_mul hα]
  rfl

theorem norm_scaled_le (hα : 0 ≤ α) (x' : Fin p → ℝ) : ‖scaled hα x'‖ ≤ weight α x' :=
  (norm_compContinuous_le _ _).trans (norm_kernel_le hα _)

theorem scaled_continuous (hα : 0 ≤ α) : Continuous (scaled hα : (Fin p → ℝ) → _) :=
  (continuous_compContinuous _).comp ((kernel_continuous hα).comp vec_continuous)

end Vectors

theorem _root_.Dcor.Spec.Sample.comp {Ω S S' : Type*} [MeasurableSpace Ω] [MeasurableSpace S] [MeasurableSpace S']
    {P : Measure Ω} {Z : ℕ → Ω → S} {μ : Measure S} (h : Spec.Sample P Z μ) {f : S → S'} (hf : Measurable f) :
    Spec.Sample P (fun i ω => f (Z i ω)) (μ.map f) where
  measurable i := hf.comp (h.measurable i)
  law i := by
    rw [← h.law i, Measure.map_map hf (h.measurable i)]
    rfl
  indep i j hij := (h.indep hij).comp hf hf

section Double

variable {Ω S S' : Type*} {mΩ : MeasurableSpace Ω} {P : Measure Ω} [TopologicalSpace S]
  [MeasurableSpace S] [BorelSpace S] [SecondCountableTopology S] [TopologicalSpace S']
  [MeasurableSpace S'] [BorelSpace S'] [SecondCountableTopology S'] {Z : ℕ → Ω → S} {μ : Measure S} {Z' : ℕ → Ω → S'}
  {μ' : Measure S'}

omit [BorelSpace S] [SecondCountableTopology S] [MeasurableSpace S] in
theorem integral_eval {g : S' → S →ᵇ ℝ} (hg : Continuous g) {w : S' → ℝ} (hw : Integrable w μ')
    (hgw : ∀ z, ‖g z‖ ≤ w z) (z : S) : (∫ z', g z' ∂μ') z = ∫ z', g z' z ∂μ' := by
  have hi : Integrable g μ' := hw.mono' hg.aestronglyMeasurable (Eventually.of_forall hgw)
  exact ((evalCLM ℝ z).integral_comp_comm hi).symm

/-- Mean of a function of two observations, of which the second is scaled by a weight of the first. -/
theorem double_law (hZ : Spec.Sample P Z μ) (hZ' : Spec.Sample P Z' μ') {w : S → ℝ} (hwc : Continuous w)
    (hw : ∀ z, 0 ≤ w z) (hwi : Integrable w μ) {g : S' → S →ᵇ ℝ} (hg : Continuous g) {w' : S' → ℝ}
    (hw' : Integrable w' μ') (hgw : ∀ z, ‖g z‖ ≤ w' z) {k : S → S' → ℝ} (hk : ∀ z z', w z * g z' z = k z z') :
    ∀ᵐ ω ∂P, Tendsto (fun n : ℕ × ℕ => (∑ i ∈ range n.1, ∑ j ∈ range n.2, k (Z i ω) (Z' j ω)) / (n.1 * n.2))
      (atTop ×ˢ atTop) (𝓝 (∫ z, ∫ z', k z z' ∂μ' ∂μ)) := by
  filter_upwards [uniform_law hZ' hg hw' hgw, weighted_law hZ hwc hw hwi (∫ z', g z' ∂μ')] with ω h1 h2
  have h := h2 (l := (atTop ×ˢ atTop : Filter (ℕ × ℕ))) tendsto_fst (h1.comp tendsto_snd)
  have e : ∀ z, w z * (∫ z', g z' ∂μ') z = ∫ z', k z z' ∂μ' := fun z => by
    rw [integral_eval hg hw' hgw, ← integral_const_mul]
    exact integral_congr_ae (Eventually.of_forall fun z' => hk z z')
  rw [integral_congr_ae (Eventually.of_forall e)] at h
  refine h.congr fun n => ?_
  simp only [Function.comp_apply, BoundedContinuousFunction.coe_smul, BoundedContinuousFunction.coe_sum, smul_eq_mul,
    Finset.sum_apply]
  rw [div_eq_mul_inv, mul_inv, mul_comm (∑ i ∈ range n.1, _), mul_assoc]
  congr 1
  rw [mul_sum]
  refine sum_congr rfl fun i _ => ?_
  rw [mul_left_comm, mul_sum]
  congr 1
  exact sum_congr rfl fun j _ => hk _ _

/-- Mean of a function of three observations. -/
theorem triple_law (hZ : Spec.Sample P Z μ) {w₁ w₂ : S → ℝ} (hc₁ : Continuous w₁) (hc₂ : Continuous w₂)
    (h₁ : ∀ z, 0 ≤ w₁ z) (h₂ : ∀ z, 0 ≤ w₂ z) (hi : Integrable (fun z => w₁ z * w₂ z) μ) (hi₁ : Integrable w₁ μ)
    (hi₂ : Integrable w₂ μ) {g₁ g₂ : S → S →ᵇ ℝ} (hg₁ : Continuous g₁) (hg₂ : Continuous g₂)
    (hw₁ : ∀ z, ‖g₁ z‖ ≤ w₁ z) (hw₂ : ∀ z, ‖g₂ z‖ ≤ w₂ z) {k₁ k₂ : S → S → ℝ}
    (hk₁ : ∀ z z', w₁ z * g₁ z' z = k₁ z z') (hk₂ : ∀ z z', w₂ z * g₂ z' z = k₂ z z') :
    ∀ᵐ ω ∂P, Tendsto (fun n : ℕ => (∑ i ∈ range n, (∑ j ∈ range n, k₁ (Z i ω) (Z j ω))
      * (∑ j ∈ range n, k₂ (Z i ω) (Z j ω))) / n ^ 3) atTop
      (𝓝 (∫ z, (∫ z', k₁ z z' ∂μ) * (∫ z', k₂ z z' ∂μ) ∂μ)) := by
  filter_upwards [uniform_law hZ hg₁ hi₁ hw₁, uniform_law hZ hg₂ hi₂ hw₂,
    weighted_law (w := fun z => w₁ z * w₂ z) hZ (hc₁.mul hc₂) (fun z => mul_nonneg (h₁ z) (h₂ z)) hi ((∫ z', g₁ z' ∂μ) * (∫ z', g₂ z' ∂μ))]
    with ω a₁ a₂ a₃
  have h := a₃ tendsto_id (a₁.mul a₂)
  have e : ∀ z, w₁ z * w₂ z * ((∫ z', g₁ z' ∂μ) * (∫ z', g₂ z' ∂μ)) z
      = (∫ z', k₁ z z' ∂μ) * (∫ z', k₂ z z' ∂μ) := fun z => by
    rw [BoundedContinuousFunction.coe_mul, Pi.mul_apply, mul_mul_mul_comm, integral_eval hg₁ hi₁ hw₁,
      integral_eval hg₂ hi₂ hw₂, ← integral_const_mul, ← integral_const_mul]
    congr 1
    · exact integral_congr_ae (Eventually.of_forall fun z' => hk₁ z z')
    · exact integral_congr_ae (Eventually.of_forall fun z' => hk₂ z z')
  rw [integral_congr_ae (Eventually.of_forall e)] at h
  refine h.congr fun n => ?_
  simp only [id_eq, BoundedContinuousFunction.coe_mul, Pi.mul_apply, BoundedContinuousFunction.coe_smul,
    BoundedContinuousFunction.coe_sum, smul_eq_mul, Finset.sum_apply]
  rw [div_eq_mul_inv, mul_comm (∑ i ∈ range n, _) ((n : ℝ) ^ 3)⁻¹, mul_sum, mul_sum]
  refine sum_congr rfl fun i _ => ?_
  have b₁ : w₁ (Z i ω) * ∑ j ∈ range n, g₁ (Z j ω) (Z i ω) = ∑ j ∈ range n, k₁ (Z i ω) (Z j ω) := by
    rw [mul_sum]
    exact sum_congr rfl fun j _ => hk₁ _ _
  have b₂ : w₂ (Z i ω) * ∑ j ∈ range n, g₂ (Z j ω) (Z i ω) = ∑ j ∈ range n, k₂ (Z i ω) (Z j ω) := by
    rw [mul_sum]
    exact sum_congr rfl fun j _ => hk₂ _ _
  rw [← b₁, ← b₂, ← inv_pow]
  ring

end Double

section Pair

variable {Ω : Type*} {mΩ : MeasurableSpace Ω} {P : Measure Ω} {p q : ℕ} {α : ℝ}
  {Z : ℕ → Ω → (Fin p → ℝ) × (Fin q → ℝ)} {μ : Measure ((Fin p → ℝ) × (Fin q → ℝ))} [IsProbabilityMeasure μ]

theorem weight_integrable_fst (hα : 0 ≤ α) (hm : Spec.Moments α μ) : Integrable (fun z => weight α z.1) μ := by
  refine (((integrable_const 1).add hm.fst).const_mul (2 ^ α)).mono'
    ((weight_continuous hα).comp continuous_fst).aestronglyMeasurable (Eventually.of_forall fun z => ?_)
  rw [Real.norm_of_nonneg (weight_nonneg _)]
  exact weight_le hα z.1

theorem weight_integrable_snd (hα : 0 ≤ α) (hm : Spec.Moments α μ) : Integrable (fun z => weight α z.2) μ := by
  refine (((integrable_const 1).add hm.snd).const_mul (2 ^ α)).mono'
    ((weight_continuous hα).comp continuous_snd).aestronglyMeasurable (Eventually.of_forall fun z => ?_)
  rw [Real.norm_of_nonneg (weight_nonneg _)]
  exact weight_le hα z.2

theorem weight_integrable_prod (hα : 0 ≤ α) (hm : Spec.Moments α μ) :
    Integrable (fun z => weight α z.1 * weight α z.2) μ := by
  refine (((((integrable_const 1).add hm.fst).add hm.snd).add hm.prod).const_mul (2 ^ α * 2 ^ α)).mono'
    (((weight_continuous hα).comp continuous_fst).mul
      ((weight_continuous hα).comp continuous_snd)).aestronglyMeasurable (Eventually.of_forall fun z => ?_)
  rw [Real.norm_of_nonneg (mul_nonneg (weight_nonneg _) (weight_nonneg _))]
  refine (mul_le_mul (weight_le hα z.1) (weight_le hα z.2) (weight_nonneg _)
    (le_trans (weight_nonneg _) (weight_le hα z.1))).trans (le_of_eq ?_)
  simp only [Pi.add_apply]
  ring

/-- The three mean values of the distance covariance converge. -/
theorem terms_law (hα : 0 ≤ α) (hZ : Spec.Sample P Z μ) (hm : Spec.Moments α μ) :
    ∀ᵐ ω ∂P,
      Tendsto (fun n : ℕ => (∑ i ∈ range n, ∑ j ∈ range n,
        Spec.dist α (Z i ω).1 (Z j ω).1 * Spec.dist α (Z i ω).2 (Z j ω).2) / n ^ 2) atTop
        (𝓝 (∫ z, ∫ z', Spec.dist α z.1 z'.1 * Spec.dist α z.2 z'.2 ∂μ ∂μ)) ∧
      Tendsto (fun n : ℕ => (∑ i ∈ range n, ∑ j ∈ range n, Spec.dist α (Z i ω).1 (Z j ω).1) / n ^ 2) atTop
        (𝓝 (∫ z, ∫ z', Spec.dist α z.1 z'.1 ∂μ ∂μ)) ∧
      Tendsto (fun n : ℕ => (∑ i ∈ range n, ∑ j ∈ range n, Spec.dist α (Z i ω).2 (Z j ω).2) / n ^ 2) atTop
        (𝓝 (∫ z, ∫ z', Spec.dist α z.2 z'.2 ∂μ ∂μ)) ∧
      Tendsto (fun n : ℕ => (∑ i ∈ range n, (∑ j ∈ range n, Spec.dist α (Z i ω).1 (Z j ω).1)
        * (∑ j ∈ range n, Spec.dist α (Z i ω).2 (Z j ω).2)) / n ^ 3) atTop
        (𝓝 (∫ z, (∫ z', Spec.dist α z.1 z'.1 ∂μ) * (∫ z', Spec.dist α z.2 z'.2 ∂μ) ∂μ)) := by
  have c1 : Continuous fun z : (Fin p → ℝ) × (Fin q → ℝ) => weight α z.1 := (weight_continuous hα).comp continuous_fst
  have c2 : Continuous fun z : (Fin p → ℝ) × (Fin q → ℝ) => weight α z.2 := (weight_continuous hα).comp continuous_snd
  obtain ⟨g₁, hg₁⟩ : ∃ g : (Fin p → ℝ) × (Fin q → ℝ) → (Fin p → ℝ) × (Fin q → ℝ) →ᵇ ℝ,
      g = fun z' => (scaled hα z'.1).compContinuous ⟨Prod.fst, continuous_fst⟩ := ⟨_, rfl⟩
  obtain ⟨g₂, hg₂⟩ : ∃ g : (Fin p → ℝ) × (Fin q → ℝ) → (Fin p → ℝ) × (Fin q → ℝ) →ᵇ ℝ,
      g = fun z' => (scaled hα z'.2).compContinuous ⟨Prod.snd, continuous_snd⟩ := ⟨_, rfl⟩
  have d1 : Continuous g₁ := by
    rw [hg₁]
    exact (continuous_compContinuous _).comp ((scaled_continuous hα).comp continuous_fst)
  have d2 : Continuous g₂ := by
    rw [hg₂]
    exact (continuous_compContinuous _).comp ((scaled_continuous hα).comp continuous_snd)
  have n1 : ∀ z, ‖g₁ z‖ ≤ weight α z.1 := fun z => by
    rw [hg₁]
    exact (norm_compContinuous_le _ _).trans (norm_scaled_le hα _)
  have n2 : ∀ z, ‖g₂ z‖ ≤ weight α z.2 := fun z => by
    rw [hg₂]
    exact (norm_compContinuous_le _ _).trans (norm_scaled_le hα _)
  have k1 : ∀ z z', weight α z.1 * g₁ z' z = Spec.dist α z.1 z'.1 := fun z z' => by
    rw [hg₁]
    exact weight_scaled hα _ _
  have k2 : ∀ z z', weight α z.2 * g₂ z' z = Spec.dist α z.2 z'.2 := fun z z' => by
    rw [hg₂]
    exact weight_scaled hα _ _
  have i1 := weight_integrable_fst hα hm
  have i2 := weight_integrable_snd hα hm
  have i3 := weight_integrable_prod hα hm
  have hdiag : Tendsto (fun n : ℕ => (n, n)) atTop (atTop ×ˢ atTop) := tendsto_id.prodMk tendsto_id
  filter_upwards [
    double_law hZ hZ (c1.mul c2) (fun z => mul_nonneg (weight_nonneg _) (weight_nonneg _)) i3
      (g := fun z => g₁ z * g₂ z) (d1.mul d2) i3
      (fun z => (norm_mul_le _ _).trans (mul_le_mul (n1 z) (n2 z) (norm_nonneg _) (weight_nonneg _)))
      (k := fun z z' => Spec.dist α z.1 z'.1 * Spec.dist α z.2 z'.2)
      (fun z z' => by rw [← k1, ← k2, BoundedContinuousFunction.coe_mul]; exact mul_mul_mul_comm _ _ _ _),
    double_law hZ hZ c1 (fun z => weight_nonneg _) i1 d1 i1 n1 k1,
    double_law hZ hZ c2 (fun z => weight_nonneg _) i2 d2 i2 n2 k2,
    triple_law hZ c1 c2 (fun z => weight_nonneg _) (fun z => weight_nonneg _) i3 i1 i2 d1 d2 n1 n2 k1 k2]
    with ω a1 a2 a3 a4
  refine ⟨(a1.comp hdiag).congr fun n => ?_, (a2.comp hdiag).congr fun n => ?_, (a3.comp hdiag).congr fun n => ?_, a4⟩
  all_goals simp only [Function.comp_apply, sq]

theorem dcovSqr_law (hα : 0 ≤ α) (hZ : Spec.Sample P Z μ) (hm : Spec.Moments α μ) :
    ∀ᵐ ω ∂P, Tendsto (fun n : ℕ => Spec.dcovSqr (Spec.distMat α fun i : Fin n => (Z i ω).1)
      (Spec.distMat α fun i : Fin n => (Z i ω).2)) atTop (𝓝 (Spec.dcovPop α μ)) := by
  filter_upwards [terms_law hα hZ hm] with ω ⟨a1, a2, a3, a4⟩
  refine ((a1.sub (a4.const_mul 2)).add (a2.mul a3)).congr' ?_ |>.trans (le_of_eq ?_)
  · filter_upwards [eventually_gt_atTop 0] with n hn
    rw [Spec.dcovSqr_eq_terms _ _ (Spec.distMat_symm _ _) (Spec.distMat_symm _ _) hn]
    simp only [Finset.sum_range, Spec.distMat]
    ring
  · rw [Spec.dcovPop]
    congr 1
    ring

theorem ratio_tendsto (k : ℕ) : Tendsto (fun n : ℕ => (n : ℝ) / (n - k)) atTop (𝓝 1) := by
  have h : Tendsto (fun n : ℕ => (1 : ℝ) - k / n) atTop (𝓝 (1 - 0)) :=
    tendsto_const_nhds.sub (tendsto_const_div_atTop_nhds_zero_nat _)
  rw [sub_zero] at h
  have := h.inv₀ one_ne_zero
  rw [inv_one] at this
  refine this.congr' ?_
  filter_upwards [eventually_gt_atTop 0] with n hn
  have : (n : ℝ) ≠ 0 := by positivity
  rw [one_sub_div this, inv_div]

theorem uDcovSqr_law (hα : 0 < α) (hZ : Spec.Sample P Z μ) (hm : Spec.Moments α μ) :
    ∀ᵐ ω ∂P, Tendsto (fun n : ℕ => Spec.uDcovSqr (Spec.distMat α fun i : Fin n => (Z i ω).1)
      (Spec.distMat α fun i : Fin n => (Z i ω).2)) atTop (𝓝 (Spec.dcovPop α μ)) := by
  filter_upwards [terms_law hα.le hZ hm] with ω ⟨a1, a2, a3, a4⟩
  have r1 := ratio_tendsto 1
  have r2 := ratio_tendsto 2
  have r3 := ratio_tendsto 3
  refine (((a1.mul r3).sub ((a4.const_mul 2).mul (r2.mul r3))).add
    ((a2.mul a3).mul (r1.mul (r2.mul r3)))).congr' ?_ |>.trans (le_of_eq ?_)
  · filter_upwards [eventually_gt_atTop 3] with n hn
    rw [Spec.uDcovSqr_eq_terms _ _ (Spec.distMat_symm _ _) (Spec.distMat_symm _ _)
      (fun i => Spec.dist_self hα.ne' _) (fun i => Spec.dist_self hα.ne' _) hn]
    simp only [Finset.sum_range, Spec.distMat]
    have h3 : (3 : ℝ) < n := by exact_mod_cast hn
    have e0 : (n : ℝ) ≠ 0 := by linarith
    have e1 : (n : ℝ) - 1 ≠ 0 := by linarith
    have e2 : (n : ℝ) - 2 ≠ 0 := by linarith
    have e3 : (n : ℝ) - 3 ≠ 0 := by linarith
    push_cast
    field_simp
  · rw [Spec.dcovPop]
    congr 1
    ring

omit [IsProbabilityMeasure μ] in
theorem moments_of_sq [IsFiniteMeasure μ] (hα : 0 ≤ α) (hx : Integrable (fun z => Spec.dist α z.1 0 ^ 2) μ)
    (hy : Integrable (fun z => Spec.dist α z.2 0 ^ 2) μ) : Spec.Moments α μ := by
  have c : ∀ {r : ℕ}, Continuous fun x : Fin r → ℝ => Spec.dist α x 0 := by
    intro r
    simp only [dist_zero]
    exact vec_continuous.norm.rpow_const fun _ => Or.inr hα
  have c1 : Continuous fun z : (Fin p → ℝ) × (Fin q → ℝ) => Spec.dist α z.1 0 := c.comp continuous_fst
  have c2 : Continuous fun z : (Fin p → ℝ) × (Fin q → ℝ) => Spec.dist α z.2 0 := c.comp continuous_snd
  refine ⟨?_, ?_, ?_⟩
  · refine ((integrable_const 1).add hx).mono' c1.aestronglyMeasurable (Eventually.of_forall fun z => ?_)
    rw [Real.norm_of_nonneg (dist_nonneg _ _)]
    simp only [Pi.add_apply]
    nlinarith [sq_nonneg (Spec.dist α z.1 0 - 1), sq_nonneg (Spec.dist α z.1 0)]
  · refine ((integrable_const 1).add hy).mono' c2.aestronglyMeasurable (Eventually.of_forall fun z => ?_)
    rw [Real.norm_of_nonneg (dist_nonneg _ _)]
    simp only [Pi.add_apply]
    nlinarith [sq_nonneg (Spec.dist α z.2 0 - 1), sq_nonneg (Spec.dist α z.2 0)]
  · refine (hx.add hy).mono' (c1.mul c2).aestronglyMeasurable (Eventually.of_forall fun z => ?_)
    rw [Real.norm_of_nonneg (mul_nonneg (dist_nonneg _ _) (dist_nonneg _ _))]
    simp only [Pi.add_apply]
    nlinarith [sq_nonneg (Spec.dist α z.1 0 - Spec.dist α z.2 0), sq_nonneg (Spec.dist α z.1 0),
      sq_nonneg (Spec.dist α z.2 0)]

theorem moments_map {S : Type*} [MeasurableSpace S] {κ : Measure S} [IsFiniteMeasure κ] (hα : 0 ≤ α)
    {f : S → Fin p → ℝ} {g : S → Fin q → ℝ} (hf : Measurable f) (hg : Measurable g)
    (hx : Integrable (fun z => Spec.dist α (f z) 0 ^ 2) κ) (hy : Integrable (fun z => Spec.dist α (g z) 0 ^ 2) κ) :
    Spec.Moments α (κ.map fun z => (f z, g z)) := by
  have c : ∀ {r : ℕ}, Continuous fun x : Fin r → ℝ => Spec.dist α x 0 := by
    intro r
    simp only [dist_zero]
    exact vec_continuous.norm.rpow_const fun _ => Or.inr hα
  have c1 : Continuous fun z : (Fin p → ℝ) × (Fin q → ℝ) => Spec.dist α z.1 0 ^ 2 := (c.comp continuous_fst).pow 2
  have c2 : Continuous fun z : (Fin p → ℝ) × (Fin q → ℝ) => Spec.dist α z.2 0 ^ 2 := (c.comp continuous_snd).pow 2
  exact moments_of_sq hα
    ((integrable_map_measure c1.aestronglyMeasurable (hf.prodMk hg).aemeasurable).2 hx)
    ((integrable_map_measure c2.aestronglyMeasurable (hf.prodMk hg).aemeasurable).2 hy)

theorem ratio_tendsto_ratio {c a b : ℕ → ℝ} {C A B : ℝ} (hA : 0 < A) (hB : 0 < B) (hc : Tendsto c atTop (𝓝 C))
    (ha : Tendsto a atTop (𝓝 A)) (hb : Tendsto b atTop (𝓝 B)) :
    Tendsto (fun n => Spec.ratio (c n) (a n) (b n)) atTop (𝓝 (C / Real.sqrt (A * B))) := by
  have hAB : 0 < A * B := mul_pos hA hB
  have h := (ha.mul hb)
  have hs : Tendsto (fun n => Real.sqrt |a n * b n|) atTop (𝓝 (Real.sqrt (A * B))) := by
    have := (Real.continuous_sqrt.tendsto _).comp h.abs
    rwa [abs_of_pos hAB] at this
  refine (hc.div hs (Real.sqrt_pos.2 hAB).ne').congr' ?_
  filter_upwards [h.eventually_ne hAB.ne'] with n hn
  rw [Spec.ratio, if_neg hn]
  rfl

end Pair

section Energy

variable {Ω : Type*} {mΩ : MeasurableSpace Ω} {P : Measure Ω} {p : ℕ} {α : ℝ} {X Y : ℕ → Ω → Fin p → ℝ}
  {μ ν : Measure (Fin p → ℝ)} [IsProbabilityMeasure μ] [IsProbabilityMeasure ν]

theorem weight_integrable (hα : 0 ≤ α) (hm : Integrable (fun x => Spec.dist α x 0) μ) :
    Integrable (fun x : Fin p → ℝ => weight α x) μ := by
  refine (((integrable_const 1).add hm).const_mul (2 ^ α)).mono'
    (weight_continuous hα).aestronglyMeasurable (Eventually.of_forall fun z => ?_)
  rw [Real.norm_of_nonneg (weight_nonneg _)]
  exact weight_le hα z

theorem crossMean_law (hα : 0 ≤ α) (hX : Spec.Sample P X μ) (hY : Spec.Sample P Y ν)
    (hμ : Integrable (fun x => Spec.dist α x 0) μ) (hν : Integrable (fun x => Spec.dist α x 0) ν) :
    ∀ᵐ ω ∂P, Tendsto (fun n : ℕ × ℕ => Spec.crossMean α (fun i : Fin n.1 => X i ω) (fun j : Fin n.2 => Y j ω))
      (atTop ×ˢ atTop) (𝓝 (∫ x, ∫ y, Spec.dist α x y ∂ν ∂μ)) := by
  filter_upwards [double_law hX hY (weight_continuous hα) weight_nonneg (weight_integrable hα hμ) (scaled_continuous hα)
    (weight_integrable hα hν) (norm_scaled_le hα) (fun x x' => weight_scaled hα x' x)] with ω h
  refine h.congr fun n => ?_
  simp only [Spec.crossMean, Finset.sum_range]

theorem pairMean_eq (hα : α ≠ 0) {n : ℕ} (hn : 1 < n) (x : Fin n → Fin p → ℝ) :
    Spec.pairMean α x = Spec.crossMean α x x * (n / (n - 1)) := by
  have h1 : (1 : ℝ) < n := by exact_mod_cast hn
  have e0 : (n : ℝ) ≠ 0 := by linarith
  have e1 : (n : ℝ) - 1 ≠ 0 := by linarith
  have : ∀ i, ∑ j ∈ univ.filter (· ≠ i), Spec.dist α (x i) (x j) = ∑ j, Spec.dist α (x i) (x j) := by
    intro i
    rw [Finset.sum_filter]
    refine sum_congr rfl fun j _ => ?_
    split_ifs with h
    · rfl
    · rw [not_not.1 h, Spec.dist_self hα]
  rw [Spec.pairMean, Spec.crossMean, sum_congr rfl fun i _ => this i]
  field_simp

theorem energy_law (hα : 0 < α) (hX : Spec.Sample P X μ) (hY : Spec.Sample P Y ν)
    (hμ : Integrable (fun x => Spec.dist α x 0) μ) (hν : Integrable (fun x => Spec.dist α x 0) ν) :
    ∀ᵐ ω ∂P,
      Tendsto (fun n : ℕ × ℕ => Spec.energyV α (fun i : Fin n.1 => X i ω) (fun j : Fin n.2 => Y j ω))
        (atTop ×ˢ atTop) (𝓝 (Spec.energyPop α μ ν)) ∧
      Tendsto (fun n : ℕ × ℕ => Spec.energyU α (fun i : Fin n.1 => X i ω) (fun j : Fin n.2 => Y j ω))
        (atTop ×ˢ atTop) (𝓝 (Spec.energyPop α μ ν)) := by
  have hdiag : Tendsto (fun n : ℕ => (n, n)) atTop (atTop ×ˢ atTop) := tendsto_id.prodMk tendsto_id
  filter_upwards [crossMean_law hα.le hX hY hμ hν, crossMean_law hα.le hX hX hμ hμ, crossMean_law hα.le hY hY hν hν]
    with ω a1 a2 a3
  have b2 := (a2.comp hdiag).comp (tendsto_fst : Tendsto _ (atTop ×ˢ atTop : Filter (ℕ × ℕ)) _)
  have b3 := (a3.comp hdiag).comp (tendsto_snd : Tendsto _ (atTop ×ˢ atTop : Filter (ℕ × ℕ)) _)
  refine ⟨((a1.const_mul 2).sub b2).sub b3, ?_⟩
  have c2 := b2.mul ((ratio_tendsto 1).comp (tendsto_fst : Tendsto _ (atTop ×ˢ atTop : Filter (ℕ × ℕ)) _))
  have c3 := b3.mul ((ratio_tendsto 1).comp (tendsto_snd : Tendsto _ (atTop ×ˢ atTop : Filter (ℕ × ℕ)) _))
  rw [mul_one] at c2 c3
  refine (((a1.const_mul 2).sub c2).sub c3).congr' ?_
  filter_upwards [(eventually_gt_atTop 1).prod_mk (eventually_gt_atTop 1)] with n hn
  rw [Spec.energyU, pairMean_eq hα.ne' hn.1, pairMean_eq hα.ne' hn.2]
  simp only [Function.comp_apply, Nat.cast_one]

end Energy

end Consistency

end Dcor

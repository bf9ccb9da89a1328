/-
Uniform laws of large numbers for mean distances, in normed spaces.
-/
import Mathlib.Probability.StrongLaw
import Mathlib.Analysis.SpecialFunctions.Pow.Continuity
import Mathlib.Topology.ContinuousMap.Bounded.Normed
import Verif.Spec.Population

namespace Dcor

open MeasureTheory ProbabilityTheory Filter Topology BoundedContinuousFunction

namespace Consistency

section Kernel

variable {V : Type*} [NormedAddCommGroup V] {α : ℝ}

theorem ratio_le (v v' : V) : ‖v - v'‖ / (1 + ‖v‖) ≤ 1 + ‖v'‖ := by
  have h1 := norm_nonneg v
  have h2 := norm_nonneg v'
  rw [div_le_iff₀ (by linarith)]
  have := norm_sub_le v v'
  nlinarith

theorem ratio_nonneg (v v' : V) : 0 ≤ ‖v - v'‖ / (1 + ‖v‖) := by positivity

/-- The distance to `v'` divided by one plus the norm, as a bounded function. -/
noncomputable def kernel (hα : 0 ≤ α) (v' : V) : V →ᵇ ℝ :=
  BoundedContinuousFunction.ofNormedAddCommGroup (fun v => (‖v - v'‖ / (1 + ‖v‖)) ^ α)
    (by
      refine Continuous.rpow_const (Continuous.div (by fun_prop) (by fun_prop) fun v => ?_) fun _ => Or.inr hα
      have := norm_nonneg v
      linarith)
    ((1 + ‖v'‖) ^ α)
    (by
      intro v
      rw [Real.norm_of_nonneg (Real.rpow_nonneg (ratio_nonneg v v') α)]
      exact Real.rpow_le_rpow (ratio_nonneg v v') (ratio_le v v') hα)

theorem kernel_apply (hα : 0 ≤ α) (v' v : V) : kernel hα v' v = (‖v - v'‖ / (1 + ‖v‖)) ^ α := rfl

theorem kernel_mul (hα : 0 ≤ α) (v' v : V) : (1 + ‖v‖) ^ α * kernel hα v' v = ‖v - v'‖ ^ α := by
  have := norm_nonneg v
  rw [kernel_apply, ← Real.mul_rpow (by linarith) (ratio_nonneg v v'), mul_div_cancel₀ _ (by linarith)]

theorem norm_kernel_le (hα : 0 ≤ α) (v' : V) : ‖kernel hα v'‖ ≤ (1 + ‖v'‖) ^ α :=
  BoundedContinuousFunction.norm_ofNormedAddCommGroup_le _ (Real.rpow_nonneg (by positivity) α) _

theorem kernel_continuous (hα : 0 ≤ α) : Continuous (kernel hα : V → V →ᵇ ℝ) := by
  rw [Metric.continuous_iff]
  intro v0 ε hε
  have hc : UniformContinuousOn (fun t : ℝ => t ^ α) (Set.Icc 0 (2 + ‖v0‖)) :=
    isCompact_Icc.uniformContinuousOn_of_continuous
      (Continuous.continuousOn (continuous_id.rpow_const fun _ => Or.inr hα))
  rw [Metric.uniformContinuousOn_iff] at hc
  obtain ⟨δ, hδ, h⟩ := hc (ε / 2) (by positivity)
  refine ⟨min δ 1, by positivity, fun v' hv' => lt_of_le_of_lt ?_ (half_lt_self hε)⟩
  rw [dist_eq_norm] at hv'
  have h1 : ‖v' - v0‖ < δ := lt_of_lt_of_le hv' (min_le_left _ _)
  have h2 : ‖v' - v0‖ < 1 := lt_of_lt_of_le hv' (min_le_right _ _)
  have h3 : ‖v'‖ ≤ 1 + ‖v0‖ := by
    have := norm_le_norm_add_norm_sub' v' v0
    linarith
  rw [BoundedContinuousFunction.dist_le (by positivity)]
  intro v
  refine (h _ ⟨ratio_nonneg v v', (ratio_le v v').trans (by linarith)⟩ _
    ⟨ratio_nonneg v v0, (ratio_le v v0).trans (by linarith)⟩ ?_).le
  rw [Real.dist_eq, ← sub_div, abs_div, abs_of_pos (a := 1 + ‖v‖) (by positivity)]
  refine lt_of_le_of_lt (div_le_self (abs_nonneg _) (by linarith [norm_nonneg v])) (lt_of_le_of_lt ?_ h1)
  have := abs_norm_sub_norm_le (v - v') (v - v0)
  rwa [sub_sub_sub_cancel_left, norm_sub_rev v0] at this

end Kernel

section Laws

variable {Ω S : Type*} {mΩ : MeasurableSpace Ω} {P : Measure Ω} [TopologicalSpace S]
  [MeasurableSpace S] [BorelSpace S] [SecondCountableTopology S] {Z : ℕ → Ω → S}
  {μ : Measure S}

/-- The strong law of large numbers for functions that depend continuously on the observations. -/
theorem uniform_law (hZ : Spec.Sample P Z μ)
    {E : Type*} [NormedAddCommGroup E] [NormedSpace ℝ E] [CompleteSpace E] {g : S → E} (hg : Continuous g)
    {w : S → ℝ} (hw : Integrable w μ) (hgw : ∀ z, ‖g z‖ ≤ w z) :
    ∀ᵐ ω ∂P, Tendsto (fun n : ℕ => (n : ℝ)⁻¹ • ∑ i ∈ Finset.range n, g (Z i ω)) atTop (𝓝 (∫ z, g z ∂μ)) := by
  let _ : MeasurableSpace E := borel E
  have _ : BorelSpace E := ⟨rfl⟩
  have hint : Integrable g (P.map (Z 0)) := by
    rw [hZ.law]
    exact hw.mono' hg.aestronglyMeasurable (Eventually.of_forall hgw)
  have h := strong_law_ae (μ := P) (fun i ω => g (Z i ω)) (hint.comp_measurable (hZ.measurable 0))
    (fun i j hij => (hZ.indep hij).comp hg.measurable hg.measurable)
    (fun i => IdentDistrib.comp ⟨(hZ.measurable i).aemeasurable, (hZ.measurable 0).aemeasurable,
      (hZ.law i).trans (hZ.law 0).symm⟩ hg.measurable)
  rwa [← integral_map (hZ.measurable 0).aemeasurable hg.aestronglyMeasurable, hZ.law] at h

omit [MeasurableSpace S] [BorelSpace S] [SecondCountableTopology S] in
/-- Averages of functions that converge uniformly. -/
theorem average_tendsto {ι : Type*} {l : Filter ι} {N : ι → ℕ} (hN : Tendsto N l atTop) {F : ι → S →ᵇ ℝ} {F' : S →ᵇ ℝ}
    (hF : Tendsto F l (𝓝 F')) {w : S → ℝ} (hw : ∀ z, 0 ≤ w z) {z : ℕ → S} {a b : ℝ}
    (h1 : Tendsto (fun n : ℕ => (n : ℝ)⁻¹ * ∑ i ∈ Finset.range n, w (z i)) atTop (𝓝 a))
    (h2 : Tendsto (fun n : ℕ => (n : ℝ)⁻¹ * ∑ i ∈ Finset.range n, w (z i) * F' (z i)) atTop (𝓝 b)) :
    Tendsto (fun n => (N n : ℝ)⁻¹ * ∑ i ∈ Finset.range (N n), w (z i) * F n (z i)) l (𝓝 b) := by
  have h3 : Tendsto (fun n => (N n : ℝ)⁻¹ * ∑ i ∈ Finset.range (N n), w (z i) * (F n (z i) - F' (z i))) l (𝓝 0) := by
    have h4 : Tendsto (fun n => ‖F n - F'‖ * ((N n : ℝ)⁻¹ * ∑ i ∈ Finset.range (N n), w (z i))) l (𝓝 0) := by
      have := (tendsto_iff_norm_sub_tendsto_zero.1 hF).mul (h1.comp hN)
      rwa [zero_mul] at this
    refine squeeze_zero_norm (fun n => ?_) h4
    rw [norm_mul, Real.norm_of_nonneg (by positivity : (0 : ℝ) ≤ (N n : ℝ)⁻¹), mul_left_comm]
    refine mul_le_mul_of_nonneg_left ?_ (by positivity)
    rw [Finset.mul_sum]
    refine (norm_sum_le _ _).trans (Finset.sum_le_sum fun i _ => ?_)
    rw [norm_mul, Real.norm_of_nonneg (hw _), mul_comm]
    refine mul_le_mul_of_nonneg_right ?_ (hw _)
    have := (F n - F').norm_coe_le_norm (z i)
    simpa using this
  have h5 := (h2.comp hN).add h3
  rw [add_zero] at h5
  refine h5.congr fun n => ?_
  rw [Function.comp_apply, ← mul_add, ← Finset.sum_add_distrib]
  congr 1
  exact Finset.sum_congr rfl fun i _ => by ring

/-- The strong law of large numbers for a function of the observations that converges uniformly. -/
theorem weighted_law (hZ : Spec.Sample P Z μ) {w : S → ℝ} (hwc : Continuous w) (hw : ∀ z, 0 ≤ w z)
    (hwi : Integrable w μ) (F' : S →ᵇ ℝ) :
    ∀ᵐ ω ∂P, ∀ {ι : Type} {l : Filter ι} {N : ι → ℕ} {F : ι → S →ᵇ ℝ}, Tendsto N l atTop → Tendsto F l (𝓝 F') →
      Tendsto (fun n => (N n : ℝ)⁻¹ * ∑ i ∈ Finset.range (N n), w (Z i ω) * F n (Z i ω)) l (𝓝 (∫ z, w z * F' z ∂μ)) := by
  have hi : Integrable (fun z => w z * F' z) μ :=
    hwi.mul_bdd (c := ‖F'‖) F'.continuous.aestronglyMeasurable (Eventually.of_forall fun z => F'.norm_coe_le_norm z)
  filter_upwards [uniform_law hZ hwc hwi (fun z => (Real.norm_of_nonneg (hw z)).le),
    uniform_law hZ (hwc.mul F'.continuous) hi.norm (fun z => le_rfl)] with ω h1 h2
  intro ι l N F hN hF
  exact average_tendsto hN hF hw h1 h2

end Laws

end Consistency

end Dcor

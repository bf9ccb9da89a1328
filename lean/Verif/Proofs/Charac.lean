/-
Distributions are determined by kernels that are averages of characters.
-/
import Mathlib.MeasureTheory.Integral.Prod
import Mathlib.MeasureTheory.Measure.CharacteristicFunction.Basic
import Mathlib.Probability.Distributions.Gaussian.Real
import Verif.Proofs.NegType

namespace Dcor

open MeasureTheory ProbabilityTheory Filter Topology Finset

namespace Charac

theorem integral_sub_two_add {T : Type*} [MeasurableSpace T] {κ : Measure T} {f g h : T → ℝ} (hf : Integrable f κ)
    (hg : Integrable g κ) (hh : Integrable h κ) :
    ∫ τ, (f τ - 2 * g τ + h τ) ∂κ = ∫ τ, f τ ∂κ - 2 * ∫ τ, g τ ∂κ + ∫ τ, h τ ∂κ := by
  have h1 : ∫ τ, (f τ - 2 * g τ + h τ) ∂κ = ∫ τ, (f τ - 2 * g τ) ∂κ + ∫ τ, h τ ∂κ :=
    integral_add (hf.sub (hg.const_mul 2)) hh
  have h2 : ∫ τ, (f τ - 2 * g τ) ∂κ = ∫ τ, f τ ∂κ - ∫ τ, 2 * g τ ∂κ := integral_sub hf (hg.const_mul 2)
  rw [h1, h2, integral_const_mul]

theorem integral_four {T : Type*} [MeasurableSpace T] {κ : Measure T} {f g h k : T → ℂ} (hf : Integrable f κ)
    (hg : Integrable g κ) (hh : Integrable h κ) (hk : Integrable k κ) :
    ∫ τ, (f τ - g τ - h τ + k τ) ∂κ = ∫ τ, f τ ∂κ - ∫ τ, g τ ∂κ - ∫ τ, h τ ∂κ + ∫ τ, k τ ∂κ := by
  have h1 : ∫ τ, (f τ - g τ - h τ + k τ) ∂κ = ∫ τ, (f τ - g τ - h τ) ∂κ + ∫ τ, k τ ∂κ :=
    integral_add ((hf.sub hg).sub hh) hk
  have h2 : ∫ τ, (f τ - g τ - h τ) ∂κ = ∫ τ, (f τ - g τ) ∂κ - ∫ τ, h τ ∂κ := integral_sub (hf.sub hg) hh
  have h3 : ∫ τ, (f τ - g τ) ∂κ = ∫ τ, f τ ∂κ - ∫ τ, g τ ∂κ := integral_sub hf hg
  rw [h1, h2, h3]

section Comb

variable {S : Type*} [MeasurableSpace S]

/-- Integral of a kernel for the difference of two distributions. -/
noncomputable def comb (μ ν : Measure S) (f : S → S → ℝ) : ℝ :=
  (∫ z, ∫ z', f z z' ∂μ ∂μ) - 2 * (∫ z, ∫ z', f z z' ∂ν ∂μ) + ∫ z, ∫ z', f z z' ∂ν ∂ν

variable {T : Type*} [MeasurableSpace T] {κ : Measure T} [SFinite κ] {K : T → S → S → ℝ} {D : S → S → ℝ}

theorem integral_swap {μ ν : Measure S} [IsFiniteMeasure μ] [IsFiniteMeasure ν]
    (hK : Measurable fun q : T × S × S => K q.1 q.2.1 q.2.2) (h0 : ∀ᵐ τ ∂κ, ∀ z z', 0 ≤ K τ z z')
    (hi : ∀ z z', Integrable (fun τ => K τ z z') κ) (hD : ∀ z z', ∫ τ, K τ z z' ∂κ = D z z')
    (hDi : Integrable (fun q : S × S => D q.1 q.2) (μ.prod ν)) :
    Integrable (fun τ => ∫ z, ∫ z', K τ z z' ∂ν ∂μ) κ ∧
      ∫ z, ∫ z', D z z' ∂ν ∂μ = ∫ τ, ∫ z, ∫ z', K τ z z' ∂ν ∂μ ∂κ := by
  have hint : Integrable (fun q : T × S × S => K q.1 q.2.1 q.2.2) (κ.prod (μ.prod ν)) := by
    rw [integrable_prod_iff' hK.aestronglyMeasurable]
    refine ⟨Eventually.of_forall fun q => hi q.1 q.2, hDi.congr (Eventually.of_forall fun q => ?_)⟩
    dsimp only
    rw [← hD]
    refine integral_congr_ae ?_
    filter_upwards [h0] with τ h
    rw [Real.norm_of_nonneg (h _ _)]
  have e : ∀ᵐ τ ∂κ, ∫ q, K τ q.1 q.2 ∂(μ.prod ν) = ∫ z, ∫ z', K τ z z' ∂ν ∂μ := by
    filter_upwards [hint.prod_right_ae] with τ hτ
    exact integral_prod _ hτ
  have h1 := hint.integral_prod_left
  refine ⟨h1.congr e, ?_⟩
  rw [← integral_prod _ hDi, ← integral_congr_ae e]
  rw [integral_integral_swap (f := fun τ (q : S × S) => K τ q.1 q.2) hint]
  exact integral_congr_ae (Eventually.of_forall fun q => (hD q.1 q.2).symm)

theorem comb_swap {μ ν : Measure S} [IsFiniteMeasure μ] [IsFiniteMeasure ν]
    (hK : Measurable fun q : T × S × S => K q.1 q.2.1 q.2.2) (h0 : ∀ᵐ τ ∂κ, ∀ z z', 0 ≤ K τ z z')
    (hi : ∀ z z', Integrable (fun τ => K τ z z') κ) (hD : ∀ z z', ∫ τ, K τ z z' ∂κ = D z z')
    (h1 : Integrable (fun q : S × S => D q.1 q.2) (μ.prod μ)) (h2 : Integrable (fun q : S × S => D q.1 q.2) (μ.prod ν))
    (h3 : Integrable (fun q : S × S => D q.1 q.2) (ν.prod ν)) :
    Integrable (fun τ => comb μ ν (K τ)) κ ∧ comb μ ν D = ∫ τ, comb μ ν (K τ) ∂κ := by
  obtain ⟨a1, b1⟩ := integral_swap hK h0 hi hD h1
  obtain ⟨a2, b2⟩ := integral_swap hK h0 hi hD h2
  obtain ⟨a3, b3⟩ := integral_swap hK h0 hi hD h3
  refine ⟨(a1.sub (a2.const_mul 2)).add a3, ?_⟩
  unfold comb
  rw [b1, b2, b3, integral_sub_two_add a1 a2 a3]

end Comb

section Features

variable {S T : Type*} [MeasurableSpace S] [MeasurableSpace T] {γ : Measure T} [IsFiniteMeasure γ] {e : T → S → ℂ}
  {k : S → S → ℝ}

/-- The average of a character. -/
noncomputable def chr (e : T → S → ℂ) (μ : Measure S) (ζ : T) : ℂ := ∫ z, e ζ z ∂μ

omit [MeasurableSpace T] in
theorem norm_chr_le {μ : Measure S} [IsProbabilityMeasure μ] (he1 : ∀ ζ z, ‖e ζ z‖ = 1) (ζ : T) : ‖chr e μ ζ‖ ≤ 1 := by
  refine (norm_integral_le_integral_norm _).trans ?_
  simp [he1]

theorem cross_eq {μ ν : Measure S} [IsProbabilityMeasure μ] [IsProbabilityMeasure ν]
    (he : Measurable fun q : T × S => e q.1 q.2) (he1 : ∀ ζ z, ‖e ζ z‖ = 1)
    (hk : ∀ z z', (k z z' : ℂ) = ∫ ζ, e ζ z * starRingEnd ℂ (e ζ z') ∂γ) :
    ((∫ z, ∫ z', k z z' ∂ν ∂μ : ℝ) : ℂ) = ∫ ζ, chr e μ ζ * starRingEnd ℂ (chr e ν ζ) ∂γ := by
  have hm : Measurable fun q : (S × S) × T => e q.2 q.1.1 * starRingEnd ℂ (e q.2 q.1.2) := by
    refine Measurable.mul (he.comp (by fun_prop : Measurable fun q : (S × S) × T => (q.2, q.1.1))) ?_
    exact Complex.continuous_conj.measurable.comp
      (he.comp (by fun_prop : Measurable fun q : (S × S) × T => (q.2, q.1.2)))
  have hint : Integrable (fun q : (S × S) × T => e q.2 q.1.1 * starRingEnd ℂ (e q.2 q.1.2)) ((μ.prod ν).prod γ) := by
    refine (integrable_const (1 : ℝ)).mono' hm.aestronglyMeasurable (Eventually.of_forall fun q => ?_)
    rw [norm_mul, RCLike.norm_conj, he1, he1, one_mul]
  have h1 : ((∫ z, ∫ z', k z z' ∂ν ∂μ : ℝ) : ℂ) = ∫ z, ∫ z', ∫ ζ, e ζ z * starRingEnd ℂ (e ζ z') ∂γ ∂ν ∂μ := by
    rw [← integral_complex_ofReal]
    refine integral_congr_ae (Eventually.of_forall fun z => ?_)
    dsimp only
    rw [← integral_complex_ofReal]
    exact integral_congr_ae (Eventually.of_forall fun z' => hk z z')
  rw [h1, ← integral_prod (f := fun q : S × S => ∫ ζ, e ζ q.1 * starRingEnd ℂ (e ζ q.2) ∂γ) hint.integral_prod_left,
    integral_integral_swap (f := fun (q : S × S) ζ => e ζ q.1 * starRingEnd ℂ (e ζ q.2)) hint]
  refine integral_congr_ae (Eventually.of_forall fun ζ => ?_)
  dsimp only
  rw [integral_prod_mul (fun z => e ζ z) fun z' => starRingEnd ℂ (e ζ z'), integral_conj]
  rfl

theorem comb_eq {μ ν : Measure S} [IsProbabilityMeasure μ] [IsProbabilityMeasure ν]
    (he : Measurable fun q : T × S => e q.1 q.2) (he1 : ∀ ζ z, ‖e ζ z‖ = 1)
    (hk : ∀ z z', (k z z' : ℂ) = ∫ ζ, e ζ z * starRingEnd ℂ (e ζ z') ∂γ) :
    comb μ ν k = ∫ ζ, Complex.normSq (chr e μ ζ - chr e ν ζ) ∂γ := by
  have hm : ∀ μ : Measure S, [IsProbabilityMeasure μ] → AEStronglyMeasurable (chr e μ) γ := fun μ _ =>
    (he.stronglyMeasurable.integral_prod_right (ν := μ)).aestronglyMeasurable
  have hi : ∀ μ ν : Measure S, [IsProbabilityMeasure μ] → [IsProbabilityMeasure ν] →
      Integrable (fun ζ => chr e μ ζ * starRingEnd ℂ (chr e ν ζ)) γ := by
    intro μ ν _ _
    refine (integrable_const (1 : ℝ)).mono' ((hm μ).mul (Complex.continuous_conj.comp_aestronglyMeasurable (hm ν)))
      (Eventually.of_forall fun ζ => ?_)
    rw [norm_mul, RCLike.norm_conj]
    exact mul_le_one₀ (norm_chr_le he1 ζ) (norm_nonneg _) (norm_chr_le he1 ζ)
  have c12 := cross_eq (μ := μ) (ν := ν) he he1 hk
  have c21 : ((∫ z, ∫ z', k z z' ∂ν ∂μ : ℝ) : ℂ) = ∫ ζ, chr e ν ζ * starRingEnd ℂ (chr e μ ζ) ∂γ := by
    rw [← Complex.conj_ofReal, c12, ← integral_conj]
    refine integral_congr_ae (Eventually.of_forall fun ζ => ?_)
    dsimp only
    rw [map_mul, Complex.conj_conj, mul_comm]
  have : (comb μ ν k : ℂ) = ((∫ ζ, Complex.normSq (chr e μ ζ - chr e ν ζ) ∂γ : ℝ) : ℂ) := by
    rw [← integral_complex_ofReal]
    have e1 : ∀ ζ, (Complex.normSq (chr e μ ζ - chr e ν ζ) : ℂ)
        = chr e μ ζ * starRingEnd ℂ (chr e μ ζ) - chr e μ ζ * starRingEnd ℂ (chr e ν ζ)
          - chr e ν ζ * starRingEnd ℂ (chr e μ ζ) + chr e ν ζ * starRingEnd ℂ (chr e ν ζ) := by
      intro ζ
      rw [← Complex.mul_conj, map_sub]
      ring
    rw [integral_congr_ae (Eventually.of_forall e1), integral_four (hi μ μ) (hi μ ν) (hi ν μ) (hi ν ν),
      ← c12, ← c21, ← cross_eq he he1 hk, ← cross_eq he he1 hk, comb]
    push_cast
    ring
  exact_mod_cast this

theorem comb_nonneg {μ ν : Measure S} [IsProbabilityMeasure μ] [IsProbabilityMeasure ν]
    (he : Measurable fun q : T × S => e q.1 q.2) (he1 : ∀ ζ z, ‖e ζ z‖ = 1)
    (hk : ∀ z z', (k z z' : ℂ) = ∫ ζ, e ζ z * starRingEnd ℂ (e ζ z') ∂γ) : 0 ≤ comb μ ν k := by
  rw [comb_eq he he1 hk]
  exact integral_nonneg fun ζ => Complex.normSq_nonneg _

/-- If the kernel cannot tell two distributions apart, then no character can. -/
theorem chr_eq {μ ν : Measure S} [IsProbabilityMeasure μ] [IsProbabilityMeasure ν] [TopologicalSpace T] [BorelSpace T]
    [FirstCountableTopology T] [γ.IsOpenPosMeasure]
    (he : Measurable fun q : T × S => e q.1 q.2) (he1 : ∀ ζ z, ‖e ζ z‖ = 1) (hec : ∀ z, Continuous fun ζ => e ζ z)
    (hk : ∀ z z', (k z z' : ℂ) = ∫ ζ, e ζ z * starRingEnd ℂ (e ζ z') ∂γ) (h : comb μ ν k = 0) :
    chr e μ = chr e ν := by
  have hm : ∀ ζ, Measurable (e ζ) := fun ζ => he.comp measurable_prodMk_left
  have hc : ∀ μ : Measure S, [IsProbabilityMeasure μ] → Continuous (chr e μ) := by
    intro μ _
    refine continuous_of_dominated (bound := fun _ => 1) (fun ζ => (hm ζ).aestronglyMeasurable)
      (fun ζ => Eventually.of_forall fun z => (he1 ζ z).le) (integrable_const _) (Eventually.of_forall hec)
  have hn : Continuous fun ζ => Complex.normSq (chr e μ ζ - chr e ν ζ) :=
    Complex.continuous_normSq.comp ((hc μ).sub (hc ν))
  rw [comb_eq he he1 hk, integral_eq_zero_iff_of_nonneg (fun ζ => Complex.normSq_nonneg _)] at h
  · have := (hn.ae_eq_iff_eq γ continuous_const).1 h
    funext ζ
    have h2 := congrFun this ζ
    exact sub_eq_zero.1 (Complex.normSq_eq_zero.1 h2)
  · refine (integrable_const (4 : ℝ)).mono' hn.measurable.aestronglyMeasurable (Eventually.of_forall fun ζ => ?_)
    rw [Real.norm_of_nonneg (Complex.normSq_nonneg _), Complex.normSq_eq_norm_sq]
    have h1 := norm_sub_le (chr e μ ζ) (chr e ν ζ)
    have h2 := norm_chr_le (μ := μ) he1 ζ
    have h3 := norm_chr_le (μ := ν) he1 ζ
    nlinarith [norm_nonneg (chr e μ ζ - chr e ν ζ)]

end Features

end Charac

end Dcor

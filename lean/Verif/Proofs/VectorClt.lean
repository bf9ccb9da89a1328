/-
The central limit theorem for independent vectors with the identity as covariance.
-/
import Mathlib.MeasureTheory.Function.ConvergenceInDistribution
import Mathlib.MeasureTheory.Measure.LevyConvergence
import Mathlib.Probability.CentralLimitTheorem
import Mathlib.Probability.Distributions.Gaussian.Multivariate
import Verif.Proofs.StudentLaw

namespace Dcor.VectorClt

open MeasureTheory ProbabilityTheory Filter Topology
open scoped RealInnerProductSpace

variable {Ω : Type*} [MeasurableSpace Ω] {P : Measure Ω} [IsProbabilityMeasure P] {d : ℕ}

/-- A scaled sum of vectors, in coordinates. -/
noncomputable def scaled (V : ℕ → Ω → Fin d → ℝ) (p : ℕ) (ω : Ω) : Fin d → ℝ :=
  fun i => (Real.sqrt p)⁻¹ * ∑ k ∈ Finset.range p, V k ω i

theorem charFun_scaled {V : ℕ → Ω → Fin d → ℝ} (mV : ∀ k, Measurable (V k))
    (hind : iIndepFun V P) (hlaw : ∀ k, P.map (V k) = P.map (V 0))
    (hmean : ∀ i, ∫ ω, V 0 ω i ∂P = 0) (hint : ∀ i, MemLp (fun ω => V 0 ω i) 2 P)
    (hcov : ∀ i j, ∫ ω, V 0 ω i * V 0 ω j ∂P = if i = j then 1 else 0) (t : EuclideanSpace ℝ (Fin d)) :
    Tendsto (fun p => charFun (P.map fun ω => (WithLp.toLp 2 (scaled V p ω) : EuclideanSpace ℝ (Fin d))) t) atTop
      (𝓝 (charFun (stdGaussian (EuclideanSpace ℝ (Fin d))) t)) := by
  rw [charFun_stdGaussian]
  have mS (p : ℕ) : Measurable fun ω => (WithLp.toLp 2 (scaled V p ω) : EuclideanSpace ℝ (Fin d)) := by
    unfold scaled
    fun_prop
  by_cases ht : t = 0
  · subst ht
    have (p : ℕ) : IsProbabilityMeasure (P.map fun ω => (WithLp.toLp 2 (scaled V p ω) : EuclideanSpace ℝ (Fin d))) :=
      Measure.isProbabilityMeasure_map (mS p).aemeasurable
    simp
  have hn : ‖t‖ ≠ 0 := norm_ne_zero_iff.2 ht
  obtain ⟨X, hX⟩ : ∃ X : ℕ → Ω → ℝ, X = fun k ω => ∑ i, V k ω i * (t i / ‖t‖) := ⟨_, rfl⟩
  have mX (k : ℕ) : Measurable (X k) := by
    rw [hX]
    fun_prop
  have hXind : iIndepFun X P := by
    have := hind.comp (g := fun _ v => ∑ i, v i * (t i / ‖t‖)) fun _ => by fun_prop
    rw [hX]
    exact this
  have hXid (k : ℕ) : IdentDistrib (X k) (X 0) P P := by
    have h1 : IdentDistrib (V k) (V 0) P P := ⟨(mV k).aemeasurable, (mV 0).aemeasurable, hlaw k⟩
    have := h1.comp (u := fun v => ∑ i, v i * (t i / ‖t‖)) (by fun_prop)
    rw [hX]
    exact this
  have hX0 : P[X 0] = 0 := by
    rw [hX]
    rw [integral_finsetSum _ fun i _ => ((hint i).integrable one_le_two).mul_const _]
    simp [integral_mul_const, hmean]
  have hX1 : P[X 0 ^ 2] = 1 := by
    have h1 (ω : Ω) : (X 0 ^ 2) ω = ∑ i, ∑ j, V 0 ω i * V 0 ω j * (t i / ‖t‖ * (t j / ‖t‖)) := by
      rw [hX, Pi.pow_apply, sq, Finset.sum_mul_sum]
      exact Finset.sum_congr rfl fun i _ => Finset.sum_congr rfl fun j _ => by ring
    have hi (i j : Fin d) : Integrable (fun ω => V 0 ω i * V 0 ω j) P := (hint i).integrable_mul (hint j)
    simp only [h1]
    rw [integral_finsetSum _ fun i _ => integrable_finsetSum _ fun j _ => (hi i j).mul_const _]
    simp only [integral_finsetSum _ fun j _ => (hi _ j).mul_const _, integral_mul_const, hcov]
    simp only [ite_mul, one_mul, zero_mul, Finset.sum_ite_eq, Finset.mem_univ, if_true]
    have h2 := EuclideanSpace.real_norm_sq_eq t
    have h3 : ∑ i, t i / ‖t‖ * (t i / ‖t‖) = (∑ i, t i ^ 2) / ‖t‖ ^ 2 := by
      rw [Finset.sum_div]
      exact Finset.sum_congr rfl fun i _ => by ring
    rw [h3, ← h2, div_self (pow_ne_zero 2 hn)]
  have key (p : ℕ) : charFun (P.map fun ω => (WithLp.toLp 2 (scaled V p ω) : EuclideanSpace ℝ (Fin d))) t
      = charFun (P.map (X 0)) ((Real.sqrt p)⁻¹ * ‖t‖) ^ p := by
    rw [← charFun_inv_sqrt_mul_sum hXind hXid, charFun_apply, charFun_apply_real,
      integral_map (mS p).aemeasurable (by fun_prop), integral_map (by fun_prop) (by fun_prop)]
    refine integral_congr_ae (ae_of_all _ fun ω => ?_)
    have : ⟪(WithLp.toLp 2 (scaled V p ω) : EuclideanSpace ℝ (Fin d)), t⟫
        = ‖t‖ * ((Real.sqrt p)⁻¹ * ∑ k ∈ Finset.range p, X k ω) := by
      rw [PiLp.inner_apply, hX]
      simp only [scaled]
      rw [Finset.sum_comm, Finset.mul_sum, Finset.mul_sum]
      refine Finset.sum_congr rfl fun i _ => ?_
      simp only [RCLike.inner_apply, conj_trivial]
      rw [← Finset.sum_mul]
      field_simp
    beta_reduce
    rw [this]
    push_cast
    ring_nf
  simp only [key]
  exact tendsto_charFun_inv_sqrt_mul_pow (mX 0).aemeasurable hX0 hX1 ‖t‖

theorem norm_toLp (u : Fin d → ℝ) : ‖(WithLp.toLp 2 u : EuclideanSpace ℝ (Fin d))‖ = StudentLaw.len u := by
  rw [EuclideanSpace.norm_eq]
  simp [StudentLaw.len]

/-- The scaled sums with vanishing remainders converge in distribution to independent normal variables. -/
theorem tendsto_scaled_add {V : ℕ → Ω → Fin d → ℝ} (mV : ∀ k, Measurable (V k))
    (hind : iIndepFun V P) (hlaw : ∀ k, P.map (V k) = P.map (V 0))
    (hmean : ∀ i, ∫ ω, V 0 ω i ∂P = 0) (hint : ∀ i, MemLp (fun ω => V 0 ω i) 2 P)
    (hcov : ∀ i j, ∫ ω, V 0 ω i * V 0 ω j ∂P = if i = j then 1 else 0)
    {R : ℕ → Ω → Fin d → ℝ} (mR : ∀ p, Measurable (R p))
    (hR : ∀ ε : ℝ, 0 < ε → Tendsto (fun p => P {ω | ε ≤ StudentLaw.len (R p ω)}) atTop (𝓝 0)) :
    TendstoInDistribution (fun p ω => (WithLp.toLp 2 (scaled V p ω + R p ω) : EuclideanSpace ℝ (Fin d))) atTop id
      (fun _ => P) (stdGaussian (EuclideanSpace ℝ (Fin d))) := by
  have mV' (p : ℕ) : Measurable fun ω => (WithLp.toLp 2 (scaled V p ω) : EuclideanSpace ℝ (Fin d)) := by
    unfold scaled
    fun_prop
  have mR' (p : ℕ) : Measurable fun ω => (WithLp.toLp 2 (R p ω) : EuclideanSpace ℝ (Fin d)) := by
    fun_prop
  have h1 : TendstoInDistribution (fun p ω => (WithLp.toLp 2 (scaled V p ω) : EuclideanSpace ℝ (Fin d))) atTop id
      (fun _ => P) (stdGaussian (EuclideanSpace ℝ (Fin d))) := by
    refine ⟨fun p => (mV' p).aemeasurable, aemeasurable_id, ?_⟩
    refine ProbabilityMeasure.tendsto_iff_tendsto_charFun.2 fun t => ?_
    have := charFun_scaled mV hind hlaw hmean hint hcov t
    simpa using this
  have h2 : TendstoInMeasure P (fun p ω => (WithLp.toLp 2 (R p ω) : EuclideanSpace ℝ (Fin d))) atTop (fun _ => 0) := by
    rw [tendstoInMeasure_iff_norm]
    intro ε hε
    simpa only [sub_zero, norm_toLp] using hR ε hε
  have h3 := h1.add_of_tendstoInMeasure_const h2 fun p => (mR' p).aemeasurable
  simp only [add_zero] at h3
  exact h3

/-- The probability that a direction has a larger share than a critical value does not depend on the direction. -/
theorem share_direction {m : ℕ} {c : EuclideanSpace ℝ (Fin (m + 1))} (hc : ‖c‖ = 1) {S : Set (ℝ × ℝ)}
    (mS : MeasurableSet S) :
    stdGaussian (EuclideanSpace ℝ (Fin (m + 1))) {u | (⟪c, u⟫, ‖u‖) ∈ S}
      = StudentLaw.normals (m + 1) {u | (u 0, StudentLaw.len u) ∈ S} := by
  obtain ⟨B, hB⟩ := Orthonormal.exists_orthonormalBasis_extension_of_card_eq (𝕜 := ℝ)
    (E := EuclideanSpace ℝ (Fin (m + 1))) (ι := Fin (m + 1)) (by simp) (v := fun _ => c) (s := {0}) (by
      rw [orthonormal_iff_ite]
      intro i j
      have : i = j := Subtype.ext (i.2.trans j.2.symm)
      rw [if_pos this]
      change ⟪c, c⟫ = 1
      rw [real_inner_self_eq_norm_sq, hc, one_pow])
  have hB0 := hB 0 rfl
  have h1 : {u : EuclideanSpace ℝ (Fin (m + 1)) | (⟪c, u⟫, ‖u‖) ∈ S}
      = B.repr ⁻¹' {u : EuclideanSpace ℝ (Fin (m + 1)) | (u 0, ‖u‖) ∈ S} := by
    ext u
    simp only [Set.mem_ofPred_eq, Set.mem_preimage, B.repr.norm_map, B.repr_apply_apply, hB0]
  have mT : MeasurableSet {u : EuclideanSpace ℝ (Fin (m + 1)) | (u 0, ‖u‖) ∈ S} := by
    refine mS.preimage (f := fun u : EuclideanSpace ℝ (Fin (m + 1)) => (u 0, ‖u‖)) ?_
    fun_prop
  rw [h1, ← Measure.map_apply (by fun_prop) mT, stdGaussian_map B.repr, ← map_pi_eq_stdGaussian,
    Measure.map_apply (by fun_prop) mT]
  congr 1
  ext u
  simp only [Set.mem_preimage, Set.mem_ofPred_eq, norm_toLp]

end Dcor.VectorClt

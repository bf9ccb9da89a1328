/-
Limits of the partial distance covariance of a growing sample.
-/
import Verif.Proofs.ConsistencyDcov
import Verif.Proofs.Independence
import Verif.Proofs.Partial
import Verif.Spec.PartialPopulation

namespace Dcor.Consistency

open Finset MeasureTheory ProbabilityTheory Filter Topology

variable {Ω S : Type*} {mΩ : MeasurableSpace Ω} [MeasurableSpace S] {P : Measure Ω} {μ : Measure S}
  [IsProbabilityMeasure μ] {W : ℕ → Ω → S} {p q r : ℕ} {α : ℝ}

theorem cov_law (hα : 0 < α) (hW : Spec.Sample P W μ) {f : S → Fin p → ℝ} {g : S → Fin q → ℝ} (mf : Measurable f)
    (mg : Measurable g) (hf : Integrable (fun w => Spec.dist α (f w) 0 ^ 2) μ)
    (hg : Integrable (fun w => Spec.dist α (g w) 0 ^ 2) μ) :
    ∀ᵐ ω ∂P, Tendsto (fun n : ℕ => Spec.uDcovSqr (Spec.distMat α fun i : Fin n => f (W i ω))
      (Spec.distMat α fun i : Fin n => g (W i ω))) atTop (𝓝 (Spec.covPop α μ f g)) := by
  have m : Measurable fun w => (f w, g w) := mf.prodMk mg
  have _ : IsProbabilityMeasure (μ.map fun w => (f w, g w)) := Measure.isProbabilityMeasure_map m.aemeasurable
  have hs : Spec.Sample P (fun i ω => (f (W i ω), g (W i ω))) (μ.map fun w => (f w, g w)) := hW.comp m
  have h := uDcovSqr_law hα hs (moments_map hα.le mf mg hf hg)
  rw [Spec.covPop]
  filter_upwards [h] with ω h
  exact h

theorem residual_inner {n : ℕ} (X : Fin n → Fin p → ℝ) (Y : Fin n → Fin q → ℝ) (Z : Fin n → Fin r → ℝ) :
    Spec.uInner (Spec.residualMat α Z X) (Spec.residualMat α Z Y)
      = if Spec.uDcovSqr (Spec.distMat α Z) (Spec.distMat α Z) = 0
        then Spec.uDcovSqr (Spec.distMat α X) (Spec.distMat α Y)
        else Spec.uDcovSqr (Spec.distMat α X) (Spec.distMat α Y) - Spec.uDcovSqr (Spec.distMat α X) (Spec.distMat α Z)
          * Spec.uDcovSqr (Spec.distMat α Y) (Spec.distMat α Z) / Spec.uDcovSqr (Spec.distMat α Z) (Spec.distMat α Z) := by
  rw [Spec.uInner_eq_uIp fun i => by rw [residualMat_diag, zero_mul]]
  unfold Spec.residualMat
  rw [Spec.uResidual_eq _ (Spec.uCentre_diag _), Spec.uResidual_eq _ (Spec.uCentre_diag _), Spec.uIp_residual]
  simp only [Spec.uDcovSqr_eq_uIp]

theorem uDcovSqr_constant {n : ℕ} (hα : α ≠ 0) (c : Fin r → ℝ) {Z : Fin n → Fin r → ℝ} (hZ : ∀ i, Z i = c) :
    Spec.uDcovSqr (Spec.distMat α Z) (Spec.distMat α Z) = 0 := by
  have e : Spec.distMat α Z = fun _ _ => 0 := by
    funext i j
    rw [Spec.distMat, hZ, hZ, Spec.dist_self hα]
  rw [e]
  simp [Spec.uDcovSqr, Spec.uInner, Spec.uCentre]

theorem partial_law (hα : 0 < α) (hW : Spec.Sample P W μ) {f : S → Fin p → ℝ} {g : S → Fin q → ℝ} {h : S → Fin r → ℝ}
    (mf : Measurable f) (mg : Measurable g) (mh : Measurable h)
    (hf : Integrable (fun w => Spec.dist α (f w) 0 ^ 2) μ) (hg : Integrable (fun w => Spec.dist α (g w) 0 ^ 2) μ)
    (hh : Integrable (fun w => Spec.dist α (h w) 0 ^ 2) μ)
    (hv : Spec.covPop α μ h h ≠ 0 ∨ ∃ c, ∀ᵐ w ∂μ, h w = c) :
    ∀ᵐ ω ∂P, Tendsto (fun n : ℕ => Spec.uInner
      (Spec.residualMat α (fun i : Fin n => h (W i ω)) (fun i : Fin n => f (W i ω)))
      (Spec.residualMat α (fun i : Fin n => h (W i ω)) (fun i : Fin n => g (W i ω))))
      atTop (𝓝 (Spec.partialPop α μ f g h)) := by
  rcases hv with hv | ⟨c, hc⟩
  · filter_upwards [cov_law hα hW mf mg hf hg, cov_law hα hW mf mh hf hh, cov_law hα hW mg mh hg hh,
      cov_law hα hW mh mh hh hh] with ω h1 h2 h3 h4
    rw [Spec.partialPop, if_neg hv]
    refine (h1.sub ((h2.mul h3).div h4 hv)).congr' ?_
    filter_upwards [h4.eventually_ne hv] with n hn
    rw [residual_inner, if_neg hn]
    rfl
  · have hconst : ∀ᵐ ω ∂P, ∀ i, h (W i ω) = c := by
      rw [ae_all_iff]
      intro i
      rw [← hW.law i] at hc
      exact ae_of_ae_map (hW.measurable i).aemeasurable hc
    filter_upwards [cov_law hα hW mf mg hf hg, cov_law hα hW mh mh hh hh, hconst] with ω h1 h4 hω
    have h0 (n : ℕ) : Spec.uDcovSqr (Spec.distMat α fun i : Fin n => h (W i ω)) (Spec.distMat α fun i : Fin n => h (W i ω))
        = 0 := uDcovSqr_constant hα.ne' c fun i => hω i
    simp only [h0] at h4
    rw [Spec.partialPop, if_pos (tendsto_nhds_unique h4 tendsto_const_nhds)]
    refine h1.congr fun n => ?_
    rw [residual_inner, if_pos (h0 n)]

end Dcor.Consistency

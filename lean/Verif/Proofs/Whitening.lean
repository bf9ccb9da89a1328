/-
Every random vector with square integrable components is an affine image of one whose components are uncorrelated with unit
variance, of a dimension that may be smaller.
-/
import Verif.Proofs.ConsistencyAfInv

namespace Dcor.Consistency

open Finset Matrix MeasureTheory ProbabilityTheory Filter Topology

variable {p : ℕ} {μ : Measure (Fin p → ℝ)} [IsProbabilityMeasure μ]

theorem coord_integrable (hm : Integrable (fun x => Spec.dist 1 x 0 ^ 2) μ) (k : Fin p) :
    Integrable (fun x : Fin p → ℝ => x k) μ := by
  have hd : Integrable (fun x : Fin p → ℝ => 1 + Spec.dist 1 x 0 ^ 2) μ := (integrable_const 1).add hm
  refine hd.mono' (continuous_apply k).aestronglyMeasurable (Eventually.of_forall fun x => ?_)
  have := abs_coord_le x k
  rw [Real.norm_eq_abs]
  nlinarith [sq_nonneg (Spec.dist 1 x 0 - 1), abs_nonneg (x k)]

omit [IsProbabilityMeasure μ] in
theorem coord_mul_integrable (hm : Integrable (fun x => Spec.dist 1 x 0 ^ 2) μ) (k l : Fin p) :
    Integrable (fun x : Fin p → ℝ => x k * x l) μ := by
  refine hm.mono' ((continuous_apply k).mul (continuous_apply l)).aestronglyMeasurable (Eventually.of_forall fun x => ?_)
  rw [Real.norm_eq_abs, abs_mul, sq]
  exact mul_le_mul (abs_coord_le x k) (abs_coord_le x l) (abs_nonneg _) (dist_nonneg _ _)

theorem centred_integrable (hm : Integrable (fun x => Spec.dist 1 x 0 ^ 2) μ) (b : Fin p → ℝ) (k : Fin p) :
    Integrable (fun x : Fin p → ℝ => x k - b k) μ := (coord_integrable hm k).sub (integrable_const _)

theorem centred_mul_integrable (hm : Integrable (fun x => Spec.dist 1 x 0 ^ 2) μ) (b : Fin p → ℝ) (k l : Fin p) :
    Integrable (fun x : Fin p → ℝ => (x k - b k) * (x l - b l)) μ := by
  have h : Integrable (fun x : Fin p → ℝ => (x k * x l - b l * x k) - (b k * x l - b k * b l)) μ :=
    ((coord_mul_integrable hm k l).sub ((coord_integrable hm k).const_mul _)).sub
      (((coord_integrable hm l).const_mul _).sub (integrable_const _))
  refine h.congr (Eventually.of_forall fun x => ?_)
  ring

/-- The means of the components. -/
noncomputable def means (μ : Measure (Fin p → ℝ)) (k : Fin p) : ℝ := ∫ x, x k ∂μ

omit [IsProbabilityMeasure μ] in
theorem popCov_eq (k l : Fin p) : Spec.popCov μ k l = ∫ x, (x k - means μ k) * (x l - means μ l) ∂μ := rfl

theorem integral_centred (hm : Integrable (fun x => Spec.dist 1 x 0 ^ 2) μ) (k : Fin p) :
    ∫ x, (x k - means μ k) ∂μ = 0 := by
  rw [integral_sub (coord_integrable hm k) (integrable_const _), integral_const, probReal_univ, one_smul, means, sub_self]

/-- Linear combination of the centred components. -/
noncomputable def comb (μ : Measure (Fin p → ℝ)) (u : Fin p → ℝ) (x : Fin p → ℝ) : ℝ := ∑ k, (x k - means μ k) * u k

omit [IsProbabilityMeasure μ] in
theorem comb_continuous (u : Fin p → ℝ) : Continuous (comb μ u) := by
  unfold comb
  fun_prop

theorem integral_comb (hm : Integrable (fun x => Spec.dist 1 x 0 ^ 2) μ) (u : Fin p → ℝ) : ∫ x, comb μ u x ∂μ = 0 := by
  unfold comb
  rw [integral_finsetSum _ fun k _ => (centred_integrable hm _ k).mul_const _]
  refine sum_eq_zero fun k _ => ?_
  rw [integral_mul_const, integral_centred hm, zero_mul]

omit [IsProbabilityMeasure μ] in
theorem comb_mul (u w x : Fin p → ℝ) : comb μ u x * comb μ w x
    = ∑ k, ∑ l, (x k - means μ k) * (x l - means μ l) * (u k * w l) := by
  rw [comb, comb, sum_mul_sum]
  exact sum_congr rfl fun k _ => sum_congr rfl fun l _ => by ring

theorem comb_mul_integrable (hm : Integrable (fun x => Spec.dist 1 x 0 ^ 2) μ) (u w : Fin p → ℝ) :
    Integrable (fun x => comb μ u x * comb μ w x) μ := by
  simp only [comb_mul]
  exact integrable_finsetSum _ fun k _ => integrable_finsetSum _ fun l _ => (centred_mul_integrable hm _ k l).mul_const _

theorem integral_comb_mul (hm : Integrable (fun x => Spec.dist 1 x 0 ^ 2) μ) (u w : Fin p → ℝ) :
    ∫ x, comb μ u x * comb μ w x ∂μ = ∑ k, ∑ l, Spec.popCov μ k l * (u k * w l) := by
  simp only [comb_mul]
  rw [integral_finsetSum _ fun k _ => integrable_finsetSum _ fun l _ => (centred_mul_integrable hm _ k l).mul_const _]
  refine sum_congr rfl fun k _ => ?_
  rw [integral_finsetSum _ fun l _ => (centred_mul_integrable hm _ k l).mul_const _]
  refine sum_congr rfl fun l _ => ?_
  rw [integral_mul_const, popCov_eq]

theorem exists_whitening (hm : Integrable (fun x => Spec.dist 1 x 0 ^ 2) μ) :
    ∃ (r : ℕ) (M : Matrix (Fin r) (Fin p) ℝ) (M' : Matrix (Fin p) (Fin r) ℝ) (b : Fin p → ℝ), M * M' = 1 ∧
      Spec.PopWhite (μ.map fun x => (fun k => x k - b k) ᵥ* M') ∧
      (∀ᵐ x ∂μ, x = fun k => (((fun k => x k - b k) ᵥ* M') ᵥ* M) k + b k) := by
  have hS : (Matrix.of fun k l => Spec.popCov μ k l).IsSymm := by
    ext k l
    simp only [transpose_apply, of_apply, Spec.popCov]
    exact integral_congr_ae (Eventually.of_forall fun x => mul_comm _ _)
  have hU := stdEigh.orthonormal _ hS
  have hU' := eigh_right stdEigh _ hS
  have dU := stdEigh.decomposition _ hS
  generalize (stdEigh.eig (Matrix.of fun k l => Spec.popCov μ k l)).2 = U at *
  generalize (stdEigh.eig (Matrix.of fun k l => Spec.popCov μ k l)).1 = l at *
  have hy : ∀ r s, ∫ x, comb μ (fun k => U k r) x * comb μ (fun k => U k s) x ∂μ = if r = s then l r else 0 := by
    intro r s
    rw [integral_comb_mul hm]
    have e : Uᵀ * (Matrix.of fun k l => Spec.popCov μ k l) * U = diagonal l := by
      rw [← dU]
      calc Uᵀ * (U * diagonal l * Uᵀ) * U = (Uᵀ * U) * diagonal l * (Uᵀ * U) := by simp only [Matrix.mul_assoc]
        _ = diagonal l := by rw [hU, Matrix.one_mul, Matrix.mul_one]
    have := congrFun (congrFun e r) s
    rw [Matrix.mul_apply, diagonal_apply] at this
    rw [← this, sum_comm]
    refine sum_congr rfl fun j _ => ?_
    rw [Matrix.mul_apply, sum_mul]
    refine sum_congr rfl fun i _ => ?_
    rw [transpose_apply, of_apply]
    ring
  have hnn : ∀ r, 0 ≤ l r := by
    intro r
    have := hy r r
    rw [if_pos rfl] at this
    rw [← this]
    exact integral_nonneg fun x => mul_self_nonneg _
  have hzero : ∀ r, ¬ 0 < l r → ∀ᵐ x ∂μ, comb μ (fun k => U k r) x = 0 := by
    intro r hr
    have h0 : l r = 0 := le_antisymm (not_lt.1 hr) (hnn r)
    have := hy r r
    rw [if_pos rfl, h0, integral_eq_zero_iff_of_nonneg (fun x => mul_self_nonneg _) (comb_mul_integrable hm _ _)] at this
    exact this.mono fun x hx => mul_self_eq_zero.1 hx
  let e : Fin (Fintype.card {k // 0 < l k}) ≃ {k // 0 < l k} := (Fintype.equivFin _).symm
  have hpos : ∀ a, 0 < Real.sqrt (l (e a)) := fun a => Real.sqrt_pos.2 (e a).2
  refine ⟨Fintype.card {k // 0 < l k}, Matrix.of fun a k => Real.sqrt (l (e a)) * U k (e a),
    Matrix.of fun k a => U k (e a) / Real.sqrt (l (e a)), means μ, ?_, ?_, ?_⟩
  · ext a b
    have h := congrFun (congrFun hU (e a)) (e b)
    rw [Matrix.mul_apply] at h
    have : ∑ k, Real.sqrt (l (e a)) * U k (e a) * (U k (e b) / Real.sqrt (l (e b)))
        = Real.sqrt (l (e a)) / Real.sqrt (l (e b)) * ∑ k, Uᵀ (e a) k * U k (e b) := by
      rw [mul_sum]
      refine sum_congr rfl fun k _ => ?_
      rw [transpose_apply]
      ring
    rw [Matrix.mul_apply]
    simp only [of_apply]
    rw [this, h]
    by_cases hab : a = b
    · subst hab
      rw [one_apply_eq, one_apply_eq, div_self (hpos a).ne', one_mul]
    · rw [one_apply_ne hab, one_apply_ne (fun h => hab (e.injective (Subtype.ext h))), mul_zero]
  · intro a b
    have hw : ∀ a (x : Fin p → ℝ), ((fun k => x k - means μ k) ᵥ* Matrix.of fun k a => U k (e a) / Real.sqrt (l (e a))) a
        = comb μ (fun k => U k (e a)) x / Real.sqrt (l (e a)) := by
      intro a x
      simp only [vecMul, dotProduct, of_apply, comb]
      rw [sum_div]
      exact sum_congr rfl fun k _ => by ring
    have hc : Continuous fun x : Fin p → ℝ =>
        (fun k => x k - means μ k) ᵥ* Matrix.of fun k a => U k (e a) / Real.sqrt (l (e a)) := by
      refine continuous_pi fun a => ?_
      simp only [hw]
      exact (comb_continuous _).div_const _
    have hz : ∀ a, ∫ x, x a ∂(μ.map fun x : Fin p → ℝ =>
        (fun k => x k - means μ k) ᵥ* Matrix.of fun k a => U k (e a) / Real.sqrt (l (e a))) = 0 := by
      intro a
      rw [integral_map hc.aemeasurable (continuous_apply a).aestronglyMeasurable]
      simp only [hw]
      rw [integral_div, integral_comb hm, zero_div]
    rw [Spec.popCov]
    simp only [hz, sub_zero]
    have cab : Continuous fun x : Fin (Fintype.card {k // 0 < l k}) → ℝ => x a * x b :=
      (continuous_apply a).mul (continuous_apply b)
    rw [integral_map hc.aemeasurable cab.aestronglyMeasurable]
    simp only [hw, div_mul_div_comm]
    rw [integral_div, hy]
    by_cases hab : a = b
    · subst hab
      rw [if_pos rfl, if_pos rfl, Real.mul_self_sqrt (e a).2.le, div_self (e a).2.ne']
    · rw [if_neg hab, if_neg (fun h => hab (e.injective (Subtype.ext h))), zero_div]
  · have hall : ∀ᵐ x ∂μ, ∀ r, ¬ 0 < l r → comb μ (fun k => U k r) x = 0 := by
      rw [ae_all_iff]
      intro r
      by_cases hr : 0 < l r
      · exact Eventually.of_forall fun x h => absurd hr h
      · exact (hzero r hr).mono fun x hx _ => hx
    filter_upwards [hall] with x hx
    funext k
    have h1 : ∑ a, comb μ (fun k => U k (e a)) x * U k (e a) = ∑ r, comb μ (fun k => U k r) x * U k r := by
      rw [e.sum_comp fun i : {k // 0 < l k} => comb μ (fun k => U k (i : Fin p)) x * U k (i : Fin p)]
      rw [← sum_subtype (univ.filter fun r => 0 < l r) (fun r => by simp) fun r => comb μ (fun k => U k r) x * U k r]
      refine sum_filter_of_ne fun r _ hr => ?_
      by_contra h
      exact hr (by rw [hx r h, zero_mul])
    have h2 : ∑ r, comb μ (fun k => U k r) x * U k r = x k - means μ k := by
      have : (((fun k => x k - means μ k) ᵥ* U) ᵥ* Uᵀ) k = x k - means μ k := by
        rw [vecMul_vecMul, hU', vecMul_one]
      rw [← this]
      rfl
    have h3 : (((fun k => x k - means μ k) ᵥ* Matrix.of fun k a => U k (e a) / Real.sqrt (l (e a)))
        ᵥ* Matrix.of fun a k => Real.sqrt (l (e a)) * U k (e a)) k = ∑ a, comb μ (fun k => U k (e a)) x * U k (e a) := by
      simp only [vecMul, dotProduct, of_apply, comb]
      refine sum_congr rfl fun a _ => ?_
      rw [sum_mul, sum_mul]
      refine sum_congr rfl fun j _ => ?_
      field_simp [(hpos a).ne']
    rw [h3, h1, h2]
    ring

end Dcor.Consistency

/-
Lemmas about the affinely invariant distance correlation of growing samples: the covariance matrix of a sample of a
distribution tends to the one of the distribution, and distances that change by a small relative amount change the distance
covariance by a small amount.
-/
import Verif.Proofs.AfInv
import Verif.Proofs.ConsistencyDcov
import Verif.Spec.AfInvPopulation

namespace Dcor.Consistency

open Finset Matrix MeasureTheory ProbabilityTheory Filter Topology

/-! ### Relative changes of the distances -/

theorem near_mul {η u v u' v' : ℝ} (h0 : 0 ≤ η) (h1 : η ≤ 1) (hu : 0 ≤ u) (hv : 0 ≤ v) (hu' : |u' - u| ≤ η * u)
    (hv' : |v' - v| ≤ η * v) : |u' * v' - u * v| ≤ 3 * η * (u * v) := by
  have e : u' * v' - u * v = (u' - u) * v + u * (v' - v) + (u' - u) * (v' - v) := by ring
  have huv := mul_nonneg hu hv
  have a1 : |(u' - u) * v| ≤ η * (u * v) := by
    rw [abs_mul, abs_of_nonneg hv]
    nlinarith
  have a2 : |u * (v' - v)| ≤ η * (u * v) := by
    rw [abs_mul, abs_of_nonneg hu]
    nlinarith
  have a3 : |(u' - u) * (v' - v)| ≤ η * (u * v) := by
    rw [abs_mul]
    calc |u' - u| * |v' - v| ≤ (η * u) * (η * v) := mul_le_mul hu' hv' (abs_nonneg _) (mul_nonneg h0 hu)
      _ = η * (η * (u * v)) := by ring
      _ ≤ 1 * (η * (u * v)) := mul_le_mul_of_nonneg_right h1 (mul_nonneg h0 huv)
      _ = η * (u * v) := one_mul _
  rw [e]
  have := abs_add_le ((u' - u) * v + u * (v' - v)) ((u' - u) * (v' - v))
  have := abs_add_le ((u' - u) * v) (u * (v' - v))
  linarith

theorem near_sum {ι : Type*} (s : Finset ι) {η : ℝ} {f g : ι → ℝ} (h : ∀ i ∈ s, |f i - g i| ≤ η * g i) :
    |∑ i ∈ s, f i - ∑ i ∈ s, g i| ≤ η * ∑ i ∈ s, g i := by
  rw [← sum_sub_distrib, mul_sum]
  exact (abs_sum_le_sum_abs _ _).trans (sum_le_sum h)

theorem dcovSqr_near {n : ℕ} (hn : 0 < n) {a b a' b' : Fin n → Fin n → ℝ} (sa : Symm a) (sb : Symm b) (sa' : Symm a')
    (sb' : Symm b') {η : ℝ} (h0 : 0 ≤ η) (h1 : η ≤ 1) (ha : ∀ i j, 0 ≤ a i j) (hb : ∀ i j, 0 ≤ b i j)
    (ha' : ∀ i j, |a' i j - a i j| ≤ η * a i j) (hb' : ∀ i j, |b' i j - b i j| ≤ η * b i j) :
    |Spec.dcovSqr a' b' - Spec.dcovSqr a b| ≤ 3 * η * ((∑ i, ∑ j, a i j * b i j) / n ^ 2
      + 2 * ((∑ i, (∑ j, a i j) * (∑ j, b i j)) / n ^ 3)
      + (∑ i, ∑ j, a i j) / n ^ 2 * ((∑ i, ∑ j, b i j) / n ^ 2)) := by
  have hn' : (0 : ℝ) < n := by exact_mod_cast hn
  have t1 := near_sum univ fun i _ => near_sum univ fun j _ => near_mul h0 h1 (ha i j) (hb i j) (ha' i j) (hb' i j)
  have t2 := near_sum univ fun i _ => near_mul h0 h1 (sum_nonneg fun j _ => ha i j) (sum_nonneg fun j _ => hb i j)
    (near_sum univ fun j _ => ha' i j) (near_sum univ fun j _ => hb' i j)
  have t3 := near_mul h0 h1 (sum_nonneg fun i _ => sum_nonneg fun j _ => ha i j)
    (sum_nonneg fun i _ => sum_nonneg fun j _ => hb i j) (near_sum univ fun i _ => near_sum univ fun j _ => ha' i j)
    (near_sum univ fun i _ => near_sum univ fun j _ => hb' i j)
  rw [Spec.dcovSqr_eq_terms a b sa sb hn, Spec.dcovSqr_eq_terms a' b' sa' sb' hn]
  generalize (∑ i, ∑ j, a i j * b i j) = A1 at *
  generalize (∑ i, ∑ j, a' i j * b' i j) = A1' at *
  generalize (∑ i, (∑ j, a i j) * (∑ j, b i j)) = A2 at *
  generalize (∑ i, (∑ j, a' i j) * (∑ j, b' i j)) = A2' at *
  generalize (∑ i, ∑ j, a i j) = A3 at *
  generalize (∑ i, ∑ j, a' i j) = A3' at *
  generalize (∑ i, ∑ j, b i j) = A4 at *
  generalize (∑ i, ∑ j, b' i j) = A4' at *
  have e : A1' / (n : ℝ) ^ 2 - 2 * A2' / n ^ 3 + A3' * A4' / n ^ 4 - (A1 / n ^ 2 - 2 * A2 / n ^ 3 + A3 * A4 / n ^ 4)
      = (A1' - A1) / n ^ 2 + -(2 * ((A2' - A2) / n ^ 3)) + (A3' * A4' - A3 * A4) / n ^ 4 := by ring
  have d1 : |(A1' - A1) / (n : ℝ) ^ 2| ≤ 3 * η * (A1 / n ^ 2) := by
    rw [abs_div, abs_of_pos (pow_pos hn' 2), ← mul_div_assoc]
    exact div_le_div_of_nonneg_right t1 (pow_pos hn' 2).le
  have d2 : |(A2' - A2) / (n : ℝ) ^ 3| ≤ 3 * η * (A2 / n ^ 3) := by
    rw [abs_div, abs_of_pos (pow_pos hn' 3), ← mul_div_assoc]
    exact div_le_div_of_nonneg_right t2 (pow_pos hn' 3).le
  have d3 : |(A3' * A4' - A3 * A4) / (n : ℝ) ^ 4| ≤ 3 * η * (A3 * A4 / n ^ 4) := by
    rw [abs_div, abs_of_pos (pow_pos hn' 4), ← mul_div_assoc]
    exact div_le_div_of_nonneg_right t3 (pow_pos hn' 4).le
  have e2 : A3 / (n : ℝ) ^ 2 * (A4 / n ^ 2) = A3 * A4 / n ^ 4 := by
    rw [div_mul_div_comm]
    ring
  rw [e, e2]
  have s1 := abs_add_le ((A1' - A1) / (n : ℝ) ^ 2 + -(2 * ((A2' - A2) / n ^ 3))) ((A3' * A4' - A3 * A4) / n ^ 4)
  have s2 := abs_add_le ((A1' - A1) / (n : ℝ) ^ 2) (-(2 * ((A2' - A2) / n ^ 3)))
  rw [abs_neg, abs_mul, abs_two] at s2
  nlinarith

/-! ### Matrices near the identity -/

section Near

variable {p : ℕ}

/-- Sum of the absolute differences between a matrix and the identity. -/
def offset (A : Matrix (Fin p) (Fin p) ℝ) : ℝ := ∑ k, ∑ l, |A k l - (1 : Matrix (Fin p) (Fin p) ℝ) k l|

theorem offset_nonneg (A : Matrix (Fin p) (Fin p) ℝ) : 0 ≤ offset A :=
  sum_nonneg fun _ _ => sum_nonneg fun _ _ => abs_nonneg _

theorem entry_le_one {u : Fin p → ℝ} (hu : ∑ k, u k ^ 2 = 1) (k : Fin p) : |u k| ≤ 1 := by
  have : u k ^ 2 ≤ 1 := by
    rw [← hu]
    exact single_le_sum (f := fun k => u k ^ 2) (fun i _ => sq_nonneg _) (mem_univ k)
  rw [← sq_abs] at this
  have h0 := abs_nonneg (u k)
  nlinarith

theorem quad_near (A : Matrix (Fin p) (Fin p) ℝ) {u : Fin p → ℝ} (hu : ∑ k, u k ^ 2 = 1) :
    |∑ k, ∑ l, u k * A k l * u l - 1| ≤ offset A := by
  have e : (1 : ℝ) = ∑ k, ∑ l, u k * (1 : Matrix (Fin p) (Fin p) ℝ) k l * u l := by
    rw [← hu]
    refine sum_congr rfl fun k _ => ?_
    rw [sum_eq_single k (fun l _ h => by rw [one_apply_ne (Ne.symm h)]; ring) (fun h => absurd (mem_univ k) h),
      one_apply_eq]
    ring
  rw [e, ← sum_sub_distrib]
  refine (abs_sum_le_sum_abs _ _).trans (sum_le_sum fun k _ => ?_)
  rw [← sum_sub_distrib]
  refine (abs_sum_le_sum_abs _ _).trans (sum_le_sum fun l _ => ?_)
  have e : u k * A k l * u l - u k * (1 : Matrix (Fin p) (Fin p) ℝ) k l * u l
      = (A k l - (1 : Matrix (Fin p) (Fin p) ℝ) k l) * (u k * u l) := by ring
  rw [e, abs_mul, abs_mul]
  have h1 := entry_le_one hu k
  have h2 := entry_le_one hu l
  have h3 : |u k| * |u l| ≤ 1 := mul_le_one₀ h1 (abs_nonneg _) h2
  have := mul_le_mul_of_nonneg_left h3 (abs_nonneg (A k l - (1 : Matrix (Fin p) (Fin p) ℝ) k l))
  linarith

theorem eig_near (eg : Eigh) {A : Matrix (Fin p) (Fin p) ℝ} (hA : A.IsSymm) (r : Fin p) :
    |(eg.eig A).1 r - 1| ≤ offset A := by
  have hU := eg.orthonormal A hA
  have dU := eg.decomposition A hA
  have hu : ∑ k, (eg.eig A).2 k r ^ 2 = 1 := by
    have := congrFun (congrFun hU r) r
    rw [Matrix.mul_apply, one_apply_eq] at this
    rw [← this]
    exact sum_congr rfl fun k _ => by rw [transpose_apply, sq]
  have h := quad_near A hu
  have e : diagonal (eg.eig A).1 = (eg.eig A).2ᵀ * A * (eg.eig A).2 := by
    calc diagonal (eg.eig A).1
        = ((eg.eig A).2ᵀ * (eg.eig A).2) * diagonal (eg.eig A).1
            * ((eg.eig A).2ᵀ * (eg.eig A).2) := by rw [hU, Matrix.one_mul, Matrix.mul_one]
      _ = (eg.eig A).2ᵀ * ((eg.eig A).2 * diagonal (eg.eig A).1 * (eg.eig A).2ᵀ)
            * (eg.eig A).2 := by simp only [Matrix.mul_assoc]
      _ = _ := by rw [dU]
  have e' := congrFun (congrFun e r) r
  rw [diagonal_apply_eq, Matrix.mul_apply] at e'
  have e3 : (eg.eig A).1 r = ∑ k, ∑ l, (eg.eig A).2 k r * A k l * (eg.eig A).2 l r := by
    rw [e', sum_comm]
    refine sum_congr rfl fun l _ => ?_
    rw [Matrix.mul_apply, sum_mul]
    exact sum_congr rfl fun k _ => by rw [transpose_apply]
  rwa [e3]

theorem norm_orth {U : Matrix (Fin p) (Fin p) ℝ} (hU : U * Uᵀ = 1) (v : Fin p → ℝ) :
    ∑ k, (v ᵥ* U) k ^ 2 = ∑ k, v k ^ 2 := by
  have h : (v ᵥ* U) ⬝ᵥ (v ᵥ* U) = v ⬝ᵥ v := by
    calc (v ᵥ* U) ⬝ᵥ (v ᵥ* U) = (v ᵥ* U) ⬝ᵥ (Uᵀ *ᵥ v) := by rw [mulVec_transpose]
      _ = ((v ᵥ* U) ᵥ* Uᵀ) ⬝ᵥ v := dotProduct_mulVec _ _ _
      _ = v ⬝ᵥ v := by rw [vecMul_vecMul, hU, vecMul_one]
  simpa [dotProduct, sq] using h

/-- Lengths of vectors that are multiplied by the inverse square root of a matrix near the identity. -/
theorem sqrtInv_near (eg : Eigh) {A : Matrix (Fin p) (Fin p) ℝ} (hA : A.IsSymm) (hs : offset A ≤ 1 / 2) (v : Fin p → ℝ) :
    (1 - offset A) * ∑ k, v k ^ 2 ≤ ∑ k, (v ᵥ* matSqrtInv eg A) k ^ 2 ∧
      ∑ k, (v ᵥ* matSqrtInv eg A) k ^ 2 ≤ (1 + 2 * offset A) * ∑ k, v k ^ 2 := by
  have hU := eg.orthonormal A hA
  have hU' := eigh_right eg A hA
  have h0 := offset_nonneg A
  have hl := fun r => eig_near eg hA r
  rw [matSqrtInv_eq]
  generalize (eg.eig A).2 = U at *
  generalize (eg.eig A).1 = l at *
  generalize offset A = δ at *
  have e1 : v ᵥ* (U * diagonal (fun i => sqrtInvEigenvalue (l i)) * Uᵀ)
      = ((v ᵥ* U) ᵥ* diagonal fun i => sqrtInvEigenvalue (l i)) ᵥ* Uᵀ := by
    rw [vecMul_vecMul, vecMul_vecMul, Matrix.mul_assoc]
  have e2 : ∑ k, (v ᵥ* (U * diagonal (fun i => sqrtInvEigenvalue (l i)) * Uᵀ)) k ^ 2
      = ∑ k, (v ᵥ* U) k ^ 2 * sqrtInvEigenvalue (l k) ^ 2 := by
    rw [e1, norm_orth (by rw [transpose_transpose, hU])]
    refine sum_congr rfl fun k _ => ?_
    rw [vecMul_diagonal, mul_pow]
  have g : ∀ k, 1 - δ ≤ sqrtInvEigenvalue (l k) ^ 2 ∧ sqrtInvEigenvalue (l k) ^ 2 ≤ 1 + 2 * δ := by
    intro k
    have := abs_le.1 (hl k)
    have hp : 0 < l k := by linarith [this.1]
    have e : sqrtInvEigenvalue (l k) ^ 2 = 1 / l k := by
      rw [sqrtInvEigenvalue, if_neg (not_le.2 hp), div_pow, one_pow, Real.sq_sqrt hp.le]
    rw [e, le_div_iff₀ hp, div_le_iff₀ hp]
    constructor <;> nlinarith [this.1, this.2]
  rw [e2, ← norm_orth hU' v, mul_sum, mul_sum]
  constructor
  · refine sum_le_sum fun k _ => ?_
    rw [mul_comm]
    exact mul_le_mul_of_nonneg_left (g k).1 (sq_nonneg _)
  · refine sum_le_sum fun k _ => ?_
    rw [mul_comm (1 + 2 * δ)]
    exact mul_le_mul_of_nonneg_left (g k).2 (sq_nonneg _)

theorem sqrt_near {δ s t : ℝ} (h0 : 0 ≤ δ) (h1 : δ ≤ 1 / 2) (ht : 0 ≤ t) (hl : (1 - δ) * t ≤ s)
    (hu : s ≤ (1 + 2 * δ) * t) : |Real.sqrt s - Real.sqrt t| ≤ 2 * δ * Real.sqrt t := by
  have hs : Real.sqrt t ^ 2 = t := Real.sq_sqrt ht
  have hr := Real.sqrt_nonneg t
  rw [abs_le]
  constructor
  · have : (1 - δ) * Real.sqrt t ≤ Real.sqrt s := by
      refine Real.le_sqrt_of_sq_le ?_
      rw [mul_pow, hs]
      refine le_trans ?_ hl
      nlinarith
    nlinarith
  · have : Real.sqrt s ≤ (1 + 2 * δ) * Real.sqrt t := by
      refine Real.sqrt_le_iff.2 ⟨by positivity, ?_⟩
      rw [mul_pow, hs]
      refine hu.trans ?_
      have : (0 : ℝ) ≤ 2 * δ * t := by positivity
      nlinarith
    linarith

/-- The distances of the scaled sample, up to the factor `n - 1`, are near the ones of a sample whose covariance matrix is
near the identity. -/
theorem distMat_near (eg : Eigh) {n : ℕ} (hn : 2 ≤ n) (X : Fin n → Fin p → ℝ) (hs : offset (covMatrix X) ≤ 1 / 2)
    (i j : Fin n) : |(((n : ℝ) - 1) • Spec.distMat 1 (afInvRows eg X)) i j - Spec.distMat 1 X i j|
      ≤ 2 * offset (covMatrix X) * Spec.distMat 1 X i j := by
  have hn1 : (0 : ℝ) < (n : ℝ) - 1 := by
    have : (2 : ℝ) ≤ n := by exact_mod_cast hn
    linarith
  have h := sqrtInv_near eg (covMatrix_symm X) hs fun k => X i k - X j k
  have e : (((n : ℝ) - 1) • Spec.distMat 1 (afInvRows eg X)) i j
      = Real.sqrt (∑ k, ((fun k => X i k - X j k) ᵥ* matSqrtInv eg (covMatrix X)) k ^ 2) := by
    simp only [Pi.smul_apply, smul_eq_mul, Spec.distMat, Spec.dist, Real.rpow_one]
    rw [afInvRows_dist, Real.sqrt_mul (sq_nonneg _), Real.sqrt_sq (inv_pos.2 hn1).le, ← mul_assoc,
      mul_inv_cancel₀ hn1.ne', one_mul]
    congr 1
    refine sum_congr rfl fun k _ => ?_
    congr 1
    rw [Matrix.mul_apply, Matrix.mul_apply, ← sum_sub_distrib]
    refine sum_congr rfl fun l _ => ?_
    simp only [centredColumns]
    ring
  rw [e]
  simp only [Spec.distMat, Spec.dist, Real.rpow_one]
  exact sqrt_near (offset_nonneg _) hs (sum_nonneg fun k _ => sq_nonneg _) h.1 h.2

end Near

/-! ### Covariance matrices of growing samples -/

section Cov

variable {p : ℕ} {Ω S : Type*} {mΩ : MeasurableSpace Ω} {P : Measure Ω} {X : ℕ → Ω → Fin p → ℝ} {μ : Measure (Fin p → ℝ)}

theorem abs_coord_le (x : Fin p → ℝ) (k : Fin p) : |x k| ≤ Spec.dist 1 x 0 := by
  rw [Spec.dist, Real.rpow_one]
  refine Real.abs_le_sqrt ?_
  have := single_le_sum (f := fun c => (x c - (0 : Fin p → ℝ) c) ^ 2) (fun i _ => sq_nonneg _) (mem_univ k)
  simpa using this

theorem covMatrix_law [IsProbabilityMeasure μ] (hX : Spec.Sample P X μ)
    (hm : Integrable (fun x => Spec.dist 1 x 0 ^ 2) μ) :
    ∀ᵐ ω ∂P, ∀ k l, Tendsto (fun n : ℕ => covMatrix (fun i : Fin n => X i ω) k l) atTop (𝓝 (Spec.popCov μ k l)) := by
  have hd : Integrable (fun x : Fin p → ℝ => 1 + Spec.dist 1 x 0 ^ 2) μ := (integrable_const 1).add hm
  have b1 : ∀ k (x : Fin p → ℝ), ‖x k‖ ≤ 1 + Spec.dist 1 x 0 ^ 2 := fun k x => by
    have := abs_coord_le x k
    rw [Real.norm_eq_abs]
    nlinarith [sq_nonneg (Spec.dist 1 x 0 - 1), abs_nonneg (x k)]
  have b2 : ∀ k l (x : Fin p → ℝ), ‖x k * x l‖ ≤ Spec.dist 1 x 0 ^ 2 := fun k l x => by
    rw [Real.norm_eq_abs, abs_mul, sq]
    exact mul_le_mul (abs_coord_le x k) (abs_coord_le x l) (abs_nonneg _) (dist_nonneg _ _)
  have i1 : ∀ k, Integrable (fun x : Fin p → ℝ => x k) μ := fun k =>
    hd.mono' (continuous_apply k).aestronglyMeasurable (Eventually.of_forall (b1 k))
  have c2 : ∀ k l, Continuous fun x : Fin p → ℝ => x k * x l := fun k l => (continuous_apply k).mul (continuous_apply l)
  have i2 : ∀ k l, Integrable (fun x : Fin p → ℝ => x k * x l) μ := fun k l =>
    hm.mono' (c2 k l).aestronglyMeasurable (Eventually.of_forall (b2 k l))
  have l1 : ∀ᵐ ω ∂P, ∀ k, Tendsto (fun n : ℕ => (n : ℝ)⁻¹ • ∑ i ∈ range n, X i ω k) atTop (𝓝 (∫ x, x k ∂μ)) :=
    ae_all_iff.2 fun k => uniform_law hX (continuous_apply k) hd (b1 k)
  have l2 : ∀ᵐ ω ∂P, ∀ k l, Tendsto (fun n : ℕ => (n : ℝ)⁻¹ • ∑ i ∈ range n, X i ω k * X i ω l) atTop
      (𝓝 (∫ x, x k * x l ∂μ)) :=
    ae_all_iff.2 fun k => ae_all_iff.2 fun l => uniform_law hX (c2 k l) hm (b2 k l)
  filter_upwards [l1, l2] with ω h1 h2
  intro k l
  have ev : Spec.popCov μ k l = (∫ x, x k * x l ∂μ) - (∫ x, x k ∂μ) * ∫ x, x l ∂μ := by
    rw [Spec.popCov]
    have : (fun x : Fin p → ℝ => (x k - ∫ x', x' k ∂μ) * (x l - ∫ x', x' l ∂μ))
        = fun x => (x k * x l - (∫ x', x' l ∂μ) * x k) - ((∫ x', x' k ∂μ) * x l - (∫ x', x' k ∂μ) * ∫ x', x' l ∂μ) := by
      funext x
      ring
    have j1 : Integrable (fun x : Fin p → ℝ => x k * x l - (∫ x', x' l ∂μ) * x k) μ := (i2 k l).sub ((i1 k).const_mul _)
    have j2 : Integrable (fun x : Fin p → ℝ => (∫ x', x' k ∂μ) * x l - (∫ x', x' k ∂μ) * ∫ x', x' l ∂μ) μ :=
      ((i1 l).const_mul _).sub (integrable_const _)
    rw [this, integral_sub j1 j2,
      integral_sub (i2 k l) ((i1 k).const_mul _), integral_sub ((i1 l).const_mul _) (integrable_const _),
      integral_const_mul, integral_const_mul, integral_const, probReal_univ, one_smul]
    ring
  rw [ev]
  have h := (((h2 k l).sub ((h1 k).mul (h1 l))).mul (ratio_tendsto 1))
  rw [mul_one] at h
  refine h.congr' ?_
  filter_upwards [eventually_ge_atTop 2] with n hn
  have hn2 : (2 : ℝ) ≤ n := by exact_mod_cast hn
  have hn0 : (n : ℝ) ≠ 0 := by linarith
  have hn1 : (n : ℝ) - 1 ≠ 0 := by linarith
  simp only [covMatrix, Matrix.mul_apply, transpose_apply, centredColumns, Finset.sum_range, smul_eq_mul]
  have : ∑ i : Fin n, (X i ω k - (∑ r : Fin n, X r ω k) / n) * (X i ω l - (∑ r : Fin n, X r ω l) / n)
      = (∑ i : Fin n, X i ω k * X i ω l) - (∑ r : Fin n, X r ω k) * (∑ r : Fin n, X r ω l) / n := by
    have e : ∀ i : Fin n, (X i ω k - (∑ r : Fin n, X r ω k) / n) * (X i ω l - (∑ r : Fin n, X r ω l) / n)
        = X i ω k * X i ω l - X i ω k * ((∑ r : Fin n, X r ω l) / n) - (∑ r : Fin n, X r ω k) / n * X i ω l
          + (∑ r : Fin n, X r ω k) / n * ((∑ r : Fin n, X r ω l) / n) := fun i => by ring
    simp only [e, sum_add_distrib, sum_sub_distrib, ← sum_mul, ← mul_sum, sum_const, card_univ, Fintype.card_fin,
      nsmul_eq_mul]
    field_simp
    ring
  rw [this]
  push_cast
  field_simp

theorem offset_law [IsProbabilityMeasure μ] (hX : Spec.Sample P X μ)
    (hm : Integrable (fun x => Spec.dist 1 x 0 ^ 2) μ) (hw : Spec.PopWhite μ) :
    ∀ᵐ ω ∂P, Tendsto (fun n : ℕ => offset (covMatrix fun i : Fin n => X i ω)) atTop (𝓝 0) := by
  filter_upwards [covMatrix_law hX hm] with ω h
  have : Tendsto (fun n : ℕ => offset (covMatrix fun i : Fin n => X i ω)) atTop
      (𝓝 (∑ k : Fin p, ∑ l : Fin p, |Spec.popCov μ k l - (1 : Matrix (Fin p) (Fin p) ℝ) k l|)) :=
    tendsto_finsetSum _ fun k _ => tendsto_finsetSum _ fun l _ => ((h k l).sub tendsto_const_nhds).abs
  have e : ∑ k : Fin p, ∑ l : Fin p, |Spec.popCov μ k l - (1 : Matrix (Fin p) (Fin p) ℝ) k l| = 0 := by
    refine sum_eq_zero fun k _ => sum_eq_zero fun l _ => ?_
    rw [hw k l, Matrix.one_apply, sub_self, abs_zero]
  rwa [e] at this

end Cov

/-! ### Scaled samples -/

section Scaled

variable {p q : ℕ} {Ω : Type*} {mΩ : MeasurableSpace Ω} {P : Measure Ω} {Z : ℕ → Ω → (Fin p → ℝ) × (Fin q → ℝ)}
  {μ : Measure ((Fin p → ℝ) × (Fin q → ℝ))} [IsProbabilityMeasure μ]

/-- Distances of the scaled sample without the factor `1 / (n - 1)`. -/
noncomputable def scaledMat (eg : Eigh) {n r : ℕ} (X : Fin n → Fin r → ℝ) : Fin n → Fin n → ℝ :=
  ((n : ℝ) - 1) • Spec.distMat 1 (afInvRows eg X)

theorem scaledMat_symm (eg : Eigh) {n r : ℕ} (X : Fin n → Fin r → ℝ) : Symm (scaledMat eg X) := fun i j => by
  simp only [scaledMat, Pi.smul_apply]
  rw [Spec.distMat_symm 1 (afInvRows eg X) i j]

theorem dcovSqr_scaled_law (eg : Eigh) (hZ : Spec.Sample P Z μ) (hx : Integrable (fun z => Spec.dist 1 z.1 0 ^ 2) μ)
    (hy : Integrable (fun z => Spec.dist 1 z.2 0 ^ 2) μ) (hwx : Spec.PopWhite (μ.map Prod.fst))
    (hwy : Spec.PopWhite (μ.map Prod.snd)) :
    ∀ᵐ ω ∂P, Tendsto (fun n : ℕ => Spec.dcovSqr (scaledMat eg fun i : Fin n => (Z i ω).1)
      (scaledMat eg fun i : Fin n => (Z i ω).2)) atTop (𝓝 (Spec.dcovPop 1 μ)) := by
  have hm := moments_of_sq zero_le_one hx hy
  have _ : IsProbabilityMeasure (μ.map Prod.fst) := Measure.isProbabilityMeasure_map measurable_fst.aemeasurable
  have _ : IsProbabilityMeasure (μ.map Prod.snd) := Measure.isProbabilityMeasure_map measurable_snd.aemeasurable
  have c : ∀ {r : ℕ}, Continuous fun x : Fin r → ℝ => Spec.dist 1 x 0 ^ 2 := by
    intro r
    simp only [dist_zero]
    exact (vec_continuous.norm.rpow_const fun _ => Or.inr zero_le_one).pow 2
  have o1 := offset_law (hZ.comp measurable_fst)
    ((integrable_map_measure c.aestronglyMeasurable measurable_fst.aemeasurable).2 hx) hwx
  have o2 := offset_law (hZ.comp measurable_snd)
    ((integrable_map_measure c.aestronglyMeasurable measurable_snd.aemeasurable).2 hy) hwy
  filter_upwards [terms_law zero_le_one hZ hm, dcovSqr_law zero_le_one hZ hm, o1, o2] with ω ⟨a1, a2, a3, a4⟩ h h1 h2
  have hη : Tendsto (fun n : ℕ => 2 * (offset (covMatrix fun i : Fin n => (Z i ω).1)
      + offset (covMatrix fun i : Fin n => (Z i ω).2))) atTop (𝓝 0) := by
    have := (h1.add h2).const_mul 2
    rwa [add_zero, mul_zero] at this
  have hB := ((hη.const_mul 3).mul ((a1.add (a4.const_mul 2)).add (a2.mul a3)))
  rw [mul_zero, zero_mul] at hB
  have hd : Tendsto (fun n : ℕ => Spec.dcovSqr (scaledMat eg fun i : Fin n => (Z i ω).1)
      (scaledMat eg fun i : Fin n => (Z i ω).2) - Spec.dcovSqr (Spec.distMat 1 fun i : Fin n => (Z i ω).1)
      (Spec.distMat 1 fun i : Fin n => (Z i ω).2)) atTop (𝓝 0) := by
    refine squeeze_zero_norm' ?_ hB
    filter_upwards [eventually_ge_atTop 2, hη.eventually_le_const (show (0 : ℝ) < 1 by norm_num)] with n hn hs
    have p1 := offset_nonneg (covMatrix fun i : Fin n => (Z i ω).1)
    have p2 := offset_nonneg (covMatrix fun i : Fin n => (Z i ω).2)
    have := dcovSqr_near (by omega) (Spec.distMat_symm 1 fun i : Fin n => (Z i ω).1)
      (Spec.distMat_symm 1 fun i : Fin n => (Z i ω).2) (scaledMat_symm eg fun i : Fin n => (Z i ω).1)
      (scaledMat_symm eg fun i : Fin n => (Z i ω).2) (by linarith) hs (fun i j => dist_nonneg _ _)
      (fun i j => dist_nonneg _ _)
      (fun i j => (distMat_near eg hn (fun i : Fin n => (Z i ω).1) (by linarith) i j).trans
        (mul_le_mul_of_nonneg_right (by linarith) (dist_nonneg _ _)))
      (fun i j => (distMat_near eg hn (fun i : Fin n => (Z i ω).2) (by linarith) i j).trans
        (mul_le_mul_of_nonneg_right (by linarith) (dist_nonneg _ _)))
    rw [Real.norm_eq_abs]
    simp only [Finset.sum_range]
    exact this
  have := hd.add h
  rw [zero_add] at this
  exact this.congr fun n => sub_add_cancel _ _

theorem dcorSqr_scaled (eg : Eigh) {n r s : ℕ} (hn : 2 ≤ n) (X : Fin n → Fin r → ℝ) (Y : Fin n → Fin s → ℝ) :
    Spec.dcorSqr (Spec.distMat 1 (afInvRows eg X)) (Spec.distMat 1 (afInvRows eg Y))
      = Spec.dcorSqr (scaledMat eg X) (scaledMat eg Y) := by
  have hn1 : (0 : ℝ) < (n : ℝ) - 1 := by
    have : (2 : ℝ) ≤ n := by exact_mod_cast hn
    linarith
  rw [scaledMat, scaledMat, Spec.dcorSqr_smul_left hn1,
    Spec.dcorSqr_comm _ (((n : ℝ) - 1) • Spec.distMat 1 (afInvRows eg Y)), Spec.dcorSqr_smul_left hn1, Spec.dcorSqr_comm]

end Scaled

end Dcor.Consistency

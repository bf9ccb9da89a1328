/-
Properties C29, C30: pairwise_distances.
-/
import Verif.Proofs.SpecAlg
import Verif.Proofs.Distances
import Verif.Props.Witness
import Mathlib.Analysis.InnerProductSpace.PiL2
import Mathlib.Analysis.MeanInequalitiesPow

namespace Dcor.Props

open Finset

variable {n l p : ℕ} {env : Env} {x y : Arr} {X : Fin n → Fin p → ℝ} {Y : Fin l → Fin p → ℝ}

/-! ### C29 -/

/-- Arrays handled by SciPy: one of them a NumPy array, neither an object array, and NumPy
recognised by the array-API compatibility layer. -/
def ScipyPath (env : Env) (x y : Arr) : Prop :=
  env.compatIsNp = true ∧ (x.ns = .numpy ∨ y.ns = .numpy) ∧ x.dtype.isObject = false ∧
    y.dtype.isObject = false

/-- C29 on the SciPy path: `n` rows, `l` columns, entry `(i, j)` is the distance from `x[i]` to
`y[j]`. Missing: the array-API path, where the result is transposed, see below. -/
theorem C29_orientation_partial (hx : Holds x.data n p X) (hy : Holds y.data l p Y)
    (h : ScipyPath env x y) (α : ℝ) :
    pairwiseDistances2 env x y α = .ok ⟨n, l, fun i j => Spec.dist α (X i) (Y j)⟩ := by
  obtain ⟨h1, h2, h3, h4⟩ := h
  have hns := commonNs_iff.2 h2
  unfold pairwiseDistances2
  rw [hx.to2d, hy.to2d]
  simp only [Except.ok_bind']
  exact cdist_scipy _ _ _ X Y α
    (by rw [Bool.and_eq_true, canBe_iff, canBe_iff]; exact ⟨⟨hns, h1, h3⟩, hns, h1, h4⟩)

/-- C29 is false on the array-API path (object arrays, other libraries, or a compatibility layer
that wraps NumPy): the result has `l` rows and `n` columns and entry `(k, i)` is the distance from
`y[k]` to `x[i]`. -/
theorem C29_array_api_transposed (hx : Holds x.data n p X) (hy : Holds y.data l p Y)
    (h : ¬ ScipyPath env x y) (α : ℝ)
    (hd : (x.dtype = .decimal ∨ y.dtype = .decimal) → ∃ k : ℤ, α = k)
    (hcl : decimalClash x.dtype y.dtype = false) :
    pairwiseDistances2 env x y α = .ok ⟨l, n, fun k i => Spec.dist α (X i) (Y k)⟩ := by
  unfold pairwiseDistances2
  rw [hx.to2d, hy.to2d]
  simp only [Except.ok_bind']
  refine cdist_naive _ _ _ X Y α ?_ hd hcl
  rw [Bool.and_eq_true, canBe_iff, canBe_iff, commonNs_iff]
  rintro ⟨⟨a, b, c⟩, _, _, d⟩
  exact h ⟨b, a, c, d⟩

/-- With different numbers of points the shape itself is wrong there. -/
theorem C29_array_api_wrong_shape (hx : Holds x.data n p X) (hy : Holds y.data l p Y)
    (h : ¬ ScipyPath env x y) (α : ℝ)
    (hd : (x.dtype = .decimal ∨ y.dtype = .decimal) → ∃ k : ℤ, α = k)
    (hcl : decimalClash x.dtype y.dtype = false) (hnl : n ≠ l) :
    ∀ d : Fin n → Fin l → ℝ, pairwiseDistances2 env x y α ≠ .ok ⟨n, l, d⟩ := by
  intro d he
  rw [C29_array_api_transposed hx hy h α hd hcl] at he
  simp only [Except.ok.injEq, Mat2.mk.injEq] at he
  exact hnl he.1.symm

/-- Hypotheses of C29: NumPy floats on the SciPy path, fractions on the other. -/
example (v : Fin 3 → Fin 2 → ℝ) (w : Fin 5 → Fin 2 → ℝ) :=
  C29_orientation_partial (env := stdEnv) (npMat_holds v) (npMat_holds w)
    ⟨rfl, Or.inl rfl, rfl, rfl⟩ 1
example (v : Fin 3 → Fin 2 → ℝ) (w : Fin 5 → Fin 2 → ℝ) :=
  C29_array_api_wrong_shape (env := stdEnv) (x := ⟨.numpy, .fraction, .mat 3 2 v⟩)
    (y := ⟨.numpy, .fraction, .mat 5 2 w⟩) (.mat 3 2 v) (.mat 5 2 w)
    (fun h => by simp [ScipyPath, DType.isObject] at h) 1 (fun h => by simp at h) rfl (by norm_num)

/-! ### C30 -/

private theorem sqrt_triangle (u v w : Fin p → ℝ) :
    Real.sqrt (∑ c, (u c - w c) ^ 2)
      ≤ Real.sqrt (∑ c, (u c - v c) ^ 2) + Real.sqrt (∑ c, (v c - w c) ^ 2) := by
  have e : ∀ a b : Fin p → ℝ, Real.sqrt (∑ c, (a c - b c) ^ 2)
      = Dist.dist (WithLp.toLp 2 a : EuclideanSpace ℝ (Fin p)) (WithLp.toLp 2 b) := by
    intro a b
    rw [EuclideanSpace.dist_eq]
    congr 1
    refine sum_congr rfl fun c _ => ?_
    rw [Real.dist_eq, sq_abs]
  rw [e, e, e]
  exact dist_triangle _ _ _

/-- C30: the matrix returned for one sample has the properties of a matrix of distances, on both
computation paths. -/
theorem C30_distance_matrix (hx : Holds x.data n p X) (α : ℝ) (hα : 0 < α)
    (hd : x.dtype = .decimal → ∃ k : ℤ, α = k) :
    ∃ d : Fin n → Fin n → ℝ, pairwiseDistances1 env x α = .ok ⟨n, d⟩ ∧
      (∀ i j, d i j = (Real.sqrt (∑ c, (X i c - X j c) ^ 2)) ^ α) ∧
      (∀ i j, d i j = d j i) ∧ (∀ i j, 0 ≤ d i j) ∧ (∀ i j, d i j = 0 ↔ X i = X j) ∧
      (α ≤ 1 → ∀ i j k, d i k ≤ d i j + d j k) := by
  refine ⟨Spec.distMat α X, ?_, fun _ _ => rfl, Spec.distMat_symm α X,
    fun i j => Spec.dist_nonneg _ _ _, fun i j => Spec.dist_eq_zero hα _ _, ?_⟩
  · unfold pairwiseDistances1
    rw [hx.to2d]
    simp only [Except.ok_bind', pdist_eq env _ _ X _ hd, Except.pure_eq]
  · intro h1 i j k
    simp only [Spec.distMat, Spec.dist]
    calc _ ≤ (Real.sqrt (∑ c, (X i c - X j c) ^ 2) + Real.sqrt (∑ c, (X j c - X k c) ^ 2)) ^ α :=
          Real.rpow_le_rpow (Real.sqrt_nonneg _) (sqrt_triangle _ _ _) hα.le
      _ ≤ _ := Real.rpow_add_le_add_rpow (Real.sqrt_nonneg _) (Real.sqrt_nonneg _) hα.le h1

/-- C30: the two paths return the same matrix for the same points: it depends neither on the
library, nor on the dtype, nor on the compatibility layer. -/
theorem C30_paths_agree {env' : Env} {x' : Arr} (hx : Holds x.data n p X)
    (hx' : Holds x'.data n p X) (α : ℝ) (hd : x.dtype = .decimal → ∃ k : ℤ, α = k)
    (hd' : x'.dtype = .decimal → ∃ k : ℤ, α = k) :
    pairwiseDistances1 env x α = pairwiseDistances1 env' x' α := by
  unfold pairwiseDistances1
  rw [hx.to2d, hx'.to2d]
  simp only [Except.ok_bind', pdist_eq env _ _ X _ hd, pdist_eq env' _ _ X _ hd']

/-- The triangle inequality needs `exponent ≤ 1`: squared distances on the line violate it. -/
theorem C30_triangle_needs_small_exponent :
    ∃ d, pairwiseDistances1 stdEnv (npVec ![0, 1, (2 : ℝ)]) 2 = .ok ⟨3, d⟩ ∧
      ¬ d 0 2 ≤ d 0 1 + d 1 2 := by
  obtain ⟨d, h1, h2, _⟩ := C30_distance_matrix (env := stdEnv) (npVec_holds ![0, 1, (2 : ℝ)]) 2
    (by norm_num) (fun h => by simp [npVec] at h)
  refine ⟨d, h1, ?_⟩
  rw [h2, h2, h2]
  have e : ![0, 1, (2 : ℝ)] 2 = 2 := rfl
  norm_num [e]

example (v : Fin 3 → Fin 2 → ℝ) := C30_distance_matrix (env := stdEnv) (npMat_holds v) (1 / 2)
  (by norm_num) (fun h => by simp [npMat] at h)

end Dcor.Props

/-
Properties C12-C18, C51, C52: ranges, degenerate cases, symmetry and invariance of the covariance
and correlation functions.
-/
import Verif.Proofs.SpecAlg
import Verif.Props.Witness
import Mathlib.LinearAlgebra.Matrix.Notation
import Mathlib.Data.Matrix.Mul

namespace Dcor.Props

open Finset

variable {n p q : ℕ} {env : Env} {x y x' y' : Arr} {o : Opts} {X : Fin n → Fin p → ℝ}
  {Y : Fin n → Fin q → ℝ}

/-! ### C12 -/

/-- C12: the bias-corrected correlation is a number in `[-1, 1]`. -/
theorem C12_u_correlation_range (h : Supported env x y o X Y) (hn : 3 < n)
    (he : o.exponent ≠ 0) :
    ∃ r : ℝ, (uDistanceCorrelationSqr env x y o).out = .ok (.fin r) ∧ -1 ≤ r ∧ r ≤ 1 :=
  ⟨_, uDistanceCorrelationSqr_ok h hn he, abs_le.1 (Spec.abs_uDcorSqr_le_one hn _ _)⟩

example := C12_u_correlation_range (supported_mat (n := 4)
  ![![0, 1], ![2, 5], ![3, 3], ![(1 : ℝ), 1]] ![![0], ![2], ![3], ![(1 : ℝ)]] (3 / 2)
  (by norm_num)) (by norm_num) (by norm_num)

/-! ### C13 -/

/-- C13: the distance variance vanishes exactly for constant samples. -/
theorem C13_zero_variance_iff (h : Supported env x x o X X) (hn : 0 < n)
    (he : 0 < o.exponent) :
    (distanceCovarianceSqr env x x o).out = .ok (.fin 0) ↔ ∀ i j, X i = X j := by
  rw [distanceCovarianceSqr_ok h hn, ← Spec.dvar_eq_zero hn he X]
  simp

/-- C13: with a constant first sample all covariances and correlations are zero, not NaN. -/
theorem C13_constant_gives_zero (h : Supported env x y o X Y) (hn : 0 < n)
    (he : 0 < o.exponent) (hc : ∀ i j, X i = X j) :
    (distanceCovarianceSqr env x y o).out = .ok (.fin 0) ∧
    (distanceCorrelationSqr env x y o).out = .ok (.fin 0) ∧
    (distanceCorrelation env x y o).out = .ok (.fin 0) ∧
    (3 < n → (uDistanceCovarianceSqr env x y o).out = .ok (.fin 0) ∧
      (uDistanceCorrelationSqr env x y o).out = .ok (.fin 0)) := by
  have h0 : Spec.distMat o.exponent X = (0 : ℝ) • Spec.distMat o.exponent X := by
    rw [(Spec.distMat_eq_zero he X).2 hc, smul_zero]
  have hd : ∀ b, Spec.dcovSqr (Spec.distMat o.exponent X) b = 0 := fun b => by
    rw [h0, Spec.dcovSqr_smul_left, zero_mul]
  have hu : ∀ b, Spec.uDcovSqr (Spec.distMat o.exponent X) b = 0 := fun b => by
    rw [h0, Spec.uDcovSqr_smul_left, zero_mul]
  have hr : Spec.dcorSqr (Spec.distMat o.exponent X) (Spec.distMat o.exponent Y) = 0 := by
    simp [Spec.dcorSqr, Spec.ratio, hd]
  have hur : Spec.uDcorSqr (Spec.distMat o.exponent X) (Spec.distMat o.exponent Y) = 0 := by
    simp [Spec.uDcorSqr, Spec.ratio, hu]
  refine ⟨?_, ?_, ?_, fun hn3 => ⟨?_, ?_⟩⟩
  · rw [distanceCovarianceSqr_ok h hn, hd]
  · rw [distanceCorrelationSqr_ok h hn, hr]
  · rw [distanceCorrelation_ok h hn, hr, Real.sqrt_zero]
  · rw [uDistanceCovarianceSqr_ok h hn3 he.ne', hu]
  · rw [uDistanceCorrelationSqr_ok h hn3 he.ne', hur]

/-- Constant and non-constant samples meeting the hypotheses of C13. -/
example := C13_zero_variance_iff (supported_vec (n := 4) (by norm_num) ![0, 3, 3, (1 : ℝ)]
  ![0, 3, 3, (1 : ℝ)] .auto .auto (Or.inl rfl)) (by norm_num) zero_lt_one
example := C13_constant_gives_zero (supported_mat (n := 4) (fun _ => ![5, (1 : ℝ)])
  ![![0], ![2], ![3], ![(1 : ℝ)]] 1 (by norm_num)) (by norm_num) zero_lt_one (fun _ _ => rfl)

/-! ### C14 -/

/-- C14: the correlation of a non-constant sample with itself is one. -/
theorem C14_self_correlation (h : Supported env x x o X X) (he : 0 < o.exponent)
    (hc : ∃ i j, X i ≠ X j) :
    (distanceCorrelationSqr env x x o).out = .ok (.fin 1) ∧
    (distanceCorrelation env x x o).out = .ok (.fin 1) := by
  obtain ⟨i, j, hij⟩ := hc
  have hn : 0 < n := i.pos
  have hv : Spec.dcovSqr (Spec.distMat o.exponent X) (Spec.distMat o.exponent X) ≠ 0 :=
    fun e => hij ((Spec.dvar_eq_zero hn he X).1 e i j)
  have h1 : Spec.dcorSqr (Spec.distMat o.exponent X) (Spec.distMat o.exponent X) = 1 :=
    Spec.ratio_self (lt_of_le_of_ne (Spec.dcovSqr_self_nonneg _) hv.symm)
  rw [distanceCorrelationSqr_ok h hn, distanceCorrelation_ok h hn, h1, Real.sqrt_one]
  exact ⟨rfl, rfl⟩

/-- C14, bias-corrected: one as soon as the unbiased variance is not zero. -/
theorem C14_u_self_correlation (h : Supported env x x o X X) (hn : 3 < n)
    (he : 0 < o.exponent)
    (hv : (uDistanceCovarianceSqr env x x o).out ≠ .ok (.fin 0)) :
    (uDistanceCorrelationSqr env x x o).out = .ok (.fin 1) := by
  rw [uDistanceCovarianceSqr_ok h hn he.ne'] at hv
  rw [uDistanceCorrelationSqr_ok h hn he.ne']
  have hv' : Spec.uDcovSqr (Spec.distMat o.exponent X) (Spec.distMat o.exponent X) ≠ 0 :=
    fun e => hv (by rw [e])
  have h1 : Spec.uDcorSqr (Spec.distMat o.exponent X) (Spec.distMat o.exponent X) = 1 :=
    Spec.ratio_self (lt_of_le_of_ne (Spec.uDvar_nonneg hn _) hv'.symm)
  rw [h1]

example := C14_self_correlation (supported_vec (n := 4) (by norm_num) ![0, 3, 3, (1 : ℝ)]
  ![0, 3, 3, (1 : ℝ)] .mergesort .auto (Or.inl rfl)) zero_lt_one
  ⟨0, 1, fun h => by have := congrFun h 0; norm_num at this⟩

/-! ### C15 -/

/-- C15: for non-constant samples the correlation is one exactly if the distances in `x` are a
positive multiple of the distances in `y`. -/
theorem C15_correlation_one_iff (h : Supported env x y o X Y) (he : 0 < o.exponent)
    (hX : ∃ i j, X i ≠ X j) (hY : ∃ i j, Y i ≠ Y j) :
    (distanceCorrelation env x y o).out = .ok (.fin 1) ↔
      ∃ t : ℝ, 0 < t ∧ ∀ i j,
        Spec.dist o.exponent (X i) (X j) = t * Spec.dist o.exponent (Y i) (Y j) := by
  obtain ⟨i, j, hij⟩ := hX
  obtain ⟨k, l, hkl⟩ := hY
  have hn : 0 < n := i.pos
  have hvx : Spec.dcovSqr (Spec.distMat o.exponent X) (Spec.distMat o.exponent X) ≠ 0 :=
    fun e => hij ((Spec.dvar_eq_zero hn he X).1 e i j)
  have hvy : Spec.dcovSqr (Spec.distMat o.exponent Y) (Spec.distMat o.exponent Y) ≠ 0 :=
    fun e => hkl ((Spec.dvar_eq_zero hn he Y).1 e k l)
  have key := Spec.dcorSqr_eq_one hn _ _ (Spec.distMat_symm o.exponent X)
    (Spec.distMat_symm o.exponent Y) (Spec.distMat_diag he.ne' X) (Spec.distMat_diag he.ne' Y)
    hvx hvy
  rw [distanceCorrelation_ok h hn]
  simp only [Except.ok.injEq, FP.fin_inj, Real.sqrt_eq_one]
  rw [key]
  constructor
  · rintro ⟨t, ht, e⟩
    exact ⟨t, ht, fun i j => congrFun (congrFun e i) j⟩
  · rintro ⟨t, ht, e⟩
    exact ⟨t, ht, funext fun i => funext fun j => e i j⟩

example := C15_correlation_one_iff (supported_vec (n := 4) (by norm_num) ![0, 3, 3, (1 : ℝ)]
  ![0, 6, 6, (2 : ℝ)] .auto .auto (Or.inl rfl)) zero_lt_one
  ⟨0, 1, fun h => by have := congrFun h 0; norm_num at this⟩
  ⟨0, 1, fun h => by have := congrFun h 0; norm_num at this⟩

/-! ### C16 -/

/-- C16: swapping the samples changes no covariance or correlation and swaps the variances. -/
theorem C16_symmetry (h : Supported env x y o X Y) (h' : Supported env y x o Y X) (hn : 0 < n) :
    (distanceCovarianceSqr env x y o).out = (distanceCovarianceSqr env y x o).out ∧
    (distanceCovariance env x y o).out = (distanceCovariance env y x o).out ∧
    (distanceCorrelationSqr env x y o).out = (distanceCorrelationSqr env y x o).out ∧
    (distanceCorrelation env x y o).out = (distanceCorrelation env y x o).out ∧
    (∃ c r vx vy, (distanceStatsSqr env x y o).out = .ok ⟨c, r, vx, vy⟩ ∧
      (distanceStatsSqr env y x o).out = .ok ⟨c, r, vy, vx⟩) ∧
    (∃ c r vx vy, (distanceStats env x y o).out = .ok ⟨c, r, vx, vy⟩ ∧
      (distanceStats env y x o).out = .ok ⟨c, r, vy, vx⟩) := by
  refine ⟨?_, ?_, ?_, ?_, ⟨_, _, _, _, distanceStatsSqr_ok h hn, ?_⟩,
    ⟨_, _, _, _, distanceStats_ok h hn, ?_⟩⟩
  · rw [distanceCovarianceSqr_ok h hn, distanceCovarianceSqr_ok h' hn, Spec.dcovSqr_comm]
  · rw [distanceCovariance_ok h hn, distanceCovariance_ok h' hn, Spec.dcovSqr_comm]
  · rw [distanceCorrelationSqr_ok h hn, distanceCorrelationSqr_ok h' hn, Spec.dcorSqr_comm]
  · rw [distanceCorrelation_ok h hn, distanceCorrelation_ok h' hn, Spec.dcorSqr_comm]
  · rw [distanceStatsSqr_ok h' hn, Spec.dcorSqr_comm, Spec.dcovSqr_comm (Spec.distMat _ Y)
      (Spec.distMat _ X)]
  · rw [distanceStats_ok h' hn, Spec.dcorSqr_comm, Spec.dcovSqr_comm (Spec.distMat _ Y)
      (Spec.distMat _ X)]

/-- C16, bias-corrected functions. -/
theorem C16_symmetry_unbiased (h : Supported env x y o X Y) (h' : Supported env y x o Y X)
    (hn : 3 < n) (he : o.exponent ≠ 0) :
    (uDistanceCovarianceSqr env x y o).out = (uDistanceCovarianceSqr env y x o).out ∧
    (uDistanceCorrelationSqr env x y o).out = (uDistanceCorrelationSqr env y x o).out ∧
    (∃ c r vx vy, (uDistanceStatsSqr env x y o).out = .ok ⟨c, r, vx, vy⟩ ∧
      (uDistanceStatsSqr env y x o).out = .ok ⟨c, r, vy, vx⟩) := by
  refine ⟨?_, ?_, ⟨_, _, _, _, uDistanceStatsSqr_ok h hn he, ?_⟩⟩
  · rw [uDistanceCovarianceSqr_ok h hn he, uDistanceCovarianceSqr_ok h' hn he,
      Spec.uDcovSqr_comm]
  · rw [uDistanceCorrelationSqr_ok h hn he, uDistanceCorrelationSqr_ok h' hn he,
      Spec.uDcorSqr_comm]
  · rw [uDistanceStatsSqr_ok h' hn he, Spec.uDcorSqr_comm,
      Spec.uDcovSqr_comm (Spec.distMat _ Y) (Spec.distMat _ X)]

example := C16_symmetry (supported_mat (n := 3) ![![0, 1], ![2, 5], ![(3 : ℝ), 3]]
  ![![0], ![2], ![(3 : ℝ)]] 1 (by norm_num)) (supported_mat _ _ 1 (by norm_num)) (by norm_num)

/-! ### C17, C18 -/

/-- Two calls return the same values from all functions. -/
def SameResults (env : Env) (x y x' y' : Arr) (o : Opts) : Prop :=
  (distanceCovarianceSqr env x y o).out = (distanceCovarianceSqr env x' y' o).out ∧
  (distanceCovariance env x y o).out = (distanceCovariance env x' y' o).out ∧
  (distanceCorrelationSqr env x y o).out = (distanceCorrelationSqr env x' y' o).out ∧
  (distanceCorrelation env x y o).out = (distanceCorrelation env x' y' o).out ∧
  (distanceStatsSqr env x y o).out = (distanceStatsSqr env x' y' o).out ∧
  (distanceStats env x y o).out = (distanceStats env x' y' o).out

/-- The same for the bias-corrected functions. -/
def SameUResults (env : Env) (x y x' y' : Arr) (o : Opts) : Prop :=
  (uDistanceCovarianceSqr env x y o).out = (uDistanceCovarianceSqr env x' y' o).out ∧
  (uDistanceCorrelationSqr env x y o).out = (uDistanceCorrelationSqr env x' y' o).out ∧
  (uDistanceStatsSqr env x y o).out = (uDistanceStatsSqr env x' y' o).out

/-- C17: the same permutation of the observations of both samples changes no result. -/
theorem C17_reordering (σ : Equiv.Perm (Fin n)) (h : Supported env x y o X Y)
    (h' : Supported env x' y' o (fun i => X (σ i)) (fun i => Y (σ i))) (hn : 0 < n) :
    SameResults env x' y' x y o := by
  unfold SameResults
  simp only [distanceCovarianceSqr_ok h hn, distanceCovarianceSqr_ok h' hn,
    distanceCovariance_ok h hn, distanceCovariance_ok h' hn, distanceCorrelationSqr_ok h hn,
    distanceCorrelationSqr_ok h' hn, distanceCorrelation_ok h hn, distanceCorrelation_ok h' hn,
    distanceStatsSqr_ok h hn, distanceStatsSqr_ok h' hn, distanceStats_ok h hn,
    distanceStats_ok h' hn, Spec.distMat_reorder, Spec.dcovSqr_reorder, Spec.dcorSqr_reorder,
    and_self]

/-- C17, bias-corrected functions. -/
theorem C17_reordering_unbiased (σ : Equiv.Perm (Fin n)) (h : Supported env x y o X Y)
    (h' : Supported env x' y' o (fun i => X (σ i)) (fun i => Y (σ i))) (hn : 3 < n)
    (he : o.exponent ≠ 0) : SameUResults env x' y' x y o := by
  unfold SameUResults
  simp only [uDistanceCovarianceSqr_ok h hn he, uDistanceCovarianceSqr_ok h' hn he,
    uDistanceCorrelationSqr_ok h hn he, uDistanceCorrelationSqr_ok h' hn he,
    uDistanceStatsSqr_ok h hn he, uDistanceStatsSqr_ok h' hn he, Spec.distMat_reorder,
    Spec.uDcovSqr_reorder, Spec.uDcorSqr_reorder, and_self]

example (σ : Equiv.Perm (Fin 4)) (m : Method) := C17_reordering σ
  (supported_vec (n := 4) (by norm_num) ![0, 3, 3, (1 : ℝ)] ![0, 6, 6, (2 : ℝ)] m .auto
    (Or.inl rfl))
  (supported_vec (n := 4) (by norm_num) (fun i => ![0, 3, 3, (1 : ℝ)] (σ i))
    (fun i => ![0, 6, 6, (2 : ℝ)] (σ i)) m .auto (Or.inl rfl)) (by norm_num)

/-- C18: a transformation `T` of the observations of `x` that preserves Euclidean distances
changes no result. -/
theorem C18_isometry {p' : ℕ} (T : (Fin p → ℝ) → (Fin p' → ℝ))
    (hT : ∀ u v, ∑ k, (T u k - T v k) ^ 2 = ∑ k, (u k - v k) ^ 2)
    (h : Supported env x y o X Y) (h' : Supported env x' y o (fun i => T (X i)) Y) :
    (0 < n → SameResults env x' y x y o) ∧
    (3 < n → o.exponent ≠ 0 → SameUResults env x' y x y o) := by
  have e : Spec.distMat o.exponent (fun i => T (X i)) = Spec.distMat o.exponent X :=
    Spec.distMat_isometry _ _ _ fun i j => hT (X i) (X j)
  constructor
  · intro hn
    unfold SameResults
    simp only [distanceCovarianceSqr_ok h hn, distanceCovarianceSqr_ok h' hn,
      distanceCovariance_ok h hn, distanceCovariance_ok h' hn, distanceCorrelationSqr_ok h hn,
      distanceCorrelationSqr_ok h' hn, distanceCorrelation_ok h hn, distanceCorrelation_ok h' hn,
      distanceStatsSqr_ok h hn, distanceStatsSqr_ok h' hn, distanceStats_ok h hn,
      distanceStats_ok h' hn, e, and_self]
  · intro hn he
    unfold SameUResults
    simp only [uDistanceCovarianceSqr_ok h hn he, uDistanceCovarianceSqr_ok h' hn he,
      uDistanceCorrelationSqr_ok h hn he, uDistanceCorrelationSqr_ok h' hn he,
      uDistanceStatsSqr_ok h hn he, uDistanceStatsSqr_ok h' hn he, e, and_self]

/-- C18: in particular for `x ↦ Q x + b` with an orthogonal matrix `Q` and a translation `b`. -/
theorem C18_orthogonal_translation (Q : Matrix (Fin p) (Fin p) ℝ) (hQ : Q.transpose * Q = 1)
    (b : Fin p → ℝ) (h : Supported env x y o X Y)
    (h' : Supported env x' y o (fun i => Q.mulVec (X i) + b) Y) :
    (0 < n → SameResults env x' y x y o) ∧
    (3 < n → o.exponent ≠ 0 → SameUResults env x' y x y o) := by
  apply C18_isometry (fun u => Q.mulVec u + b) _ h h'
  intro u v
  have e : ∀ k, (Q.mulVec u + b) k - (Q.mulVec v + b) k = Q.mulVec (u - v) k := by
    intro k
    rw [Matrix.mulVec_sub]
    simp
  have e2 : ∀ w : Fin p → ℝ, ∑ k, w k ^ 2 = w ⬝ᵥ w := fun w => by
    simp [dotProduct, sq]
  simp only [e]
  rw [e2, Matrix.dotProduct_mulVec, Matrix.vecMul_mulVec, hQ, Matrix.vecMul_one, ← e2]
  rfl

/-- C18: multiplying `x` by `c` multiplies the squared covariances by `|c| ^ exponent` and, for
`c ≠ 0`, leaves the correlations unchanged. -/
theorem C18_scaling (c : ℝ) (h : Supported env x y o X Y)
    (h' : Supported env x' y o (fun i k => c * X i k) Y) (hn : 0 < n) :
    (∃ v, (distanceCovarianceSqr env x y o).out = .ok (.fin v) ∧
      (distanceCovarianceSqr env x' y o).out = .ok (.fin (|c| ^ o.exponent * v))) ∧
    (c ≠ 0 →
      (distanceCorrelationSqr env x' y o).out = (distanceCorrelationSqr env x y o).out ∧
      (distanceCorrelation env x' y o).out = (distanceCorrelation env x y o).out) ∧
    (3 < n → o.exponent ≠ 0 →
      (∃ v, (uDistanceCovarianceSqr env x y o).out = .ok (.fin v) ∧
        (uDistanceCovarianceSqr env x' y o).out = .ok (.fin (|c| ^ o.exponent * v))) ∧
      (c ≠ 0 →
        (uDistanceCorrelationSqr env x' y o).out = (uDistanceCorrelationSqr env x y o).out)) := by
  have hc : c ≠ 0 → 0 < |c| ^ o.exponent := fun hc => Real.rpow_pos_of_pos (abs_pos.2 hc) _
  refine ⟨⟨_, distanceCovarianceSqr_ok h hn, ?_⟩, fun h0 => ⟨?_, ?_⟩,
    fun hn3 he => ⟨⟨_, uDistanceCovarianceSqr_ok h hn3 he, ?_⟩, fun h0 => ?_⟩⟩
  · rw [distanceCovarianceSqr_ok h' hn, Spec.distMat_scale, Spec.dcovSqr_smul_left]
  · rw [distanceCorrelationSqr_ok h hn, distanceCorrelationSqr_ok h' hn, Spec.distMat_scale,
      Spec.dcorSqr_smul_left (hc h0)]
  · rw [distanceCorrelation_ok h hn, distanceCorrelation_ok h' hn, Spec.distMat_scale,
      Spec.dcorSqr_smul_left (hc h0)]
  · rw [uDistanceCovarianceSqr_ok h' hn3 he, Spec.distMat_scale, Spec.uDcovSqr_smul_left]
  · rw [uDistanceCorrelationSqr_ok h hn3 he, uDistanceCorrelationSqr_ok h' hn3 he,
      Spec.distMat_scale, Spec.uDcorSqr_smul_left (hc h0)]

/-- A rotation by a right angle of planar data, and a rescaling. -/
example : (!![0, -1; 1, (0 : ℝ)]).transpose * !![0, -1; 1, 0] = 1 := by
  ext i j; fin_cases i <;> fin_cases j <;> simp [Matrix.mul_apply, Fin.sum_univ_two]
example (M : Fin 4 → Fin 2 → ℝ) (w : Fin 4 → Fin 1 → ℝ) (Q : Matrix (Fin 2) (Fin 2) ℝ)
    (hQ : Q.transpose * Q = 1) (b : Fin 2 → ℝ) :=
  C18_orthogonal_translation Q hQ b (supported_mat M w 1 (by norm_num))
    (supported_mat (fun i => Q.mulVec (M i) + b) w 1 (by norm_num))
example (v w : Fin 4 → ℝ) (c : ℝ) := C18_scaling c
  (supported_vec (by norm_num) v w .auto .auto (Or.inl rfl))
  (supported_vec (by norm_num) (fun i => c * v i) w .auto .auto (Or.inl rfl)) (by norm_num)

/-! ### C51 -/

/-- The documented relation between a squared statistic and its root: the non-negative square
root of the value, negative values counting as zero; infinities and NaN are kept. -/
inductive IsRoot : FP ℝ → FP ℝ → Prop
  | fin (c r : ℝ) (h0 : 0 ≤ r) (h : r ^ 2 = max c 0) : IsRoot (.fin c) (.fin r)
  | nan : IsRoot .nan .nan
  | pinf : IsRoot .pinf .pinf
  | ninf : IsRoot .ninf (.fin 0)

private theorem isRoot_sqrtClip (c : FP ℝ) : IsRoot c (sqrtClip c) := by
  cases c with
  | fin c =>
    rw [sqrtClip_fin]
    refine .fin _ _ (Real.sqrt_nonneg _) ?_
    rcases le_total 0 c with h | h
    · rw [Real.sq_sqrt h, max_eq_left h]
    · rw [Real.sqrt_eq_zero_of_nonpos h, max_eq_right h, sq, mul_zero]
  | pinf => exact .pinf
  | ninf =>
    show IsRoot .ninf (.fin (Real.sqrt 0))
    rw [Real.sqrt_zero]
    exact .ninf
  | nan => exact .nan

/-- Two calls fail in the same way or return related values. -/
def Related {α β : Type} (R : α → β → Prop) : Except PyErr α → Except PyErr β → Prop
  | .ok a, .ok b => R a b
  | .error e, .error e' => e = e'
  | _, _ => False

private theorem related_bind {α β : Type} (R : α → β → Prop) (m : PyM α) (f : α → β)
    (h : ∀ a, R a (f a)) :
    Related R m.out (m >>= fun a => PyM.pure (f a)).out ∧
      (m >>= fun a => PyM.pure (f a)).warns = m.warns := by
  rcases m with ⟨w, r⟩
  cases r with
  | ok a => exact ⟨h a, by show w ++ [] = w; simp⟩
  | error e => exact ⟨rfl, rfl⟩

/-- C51: for all inputs whatsoever the root functions return the non-negative square roots of
the squared statistics, issue the same warnings, and fail exactly when those fail. -/
theorem C51_roots (env : Env) (x y : Arr) (o : Opts) :
    Related IsRoot (distanceCovarianceSqr env x y o).out (distanceCovariance env x y o).out ∧
    (distanceCovariance env x y o).warns = (distanceCovarianceSqr env x y o).warns ∧
    Related IsRoot (distanceCorrelationSqr env x y o).out (distanceCorrelation env x y o).out ∧
    (distanceCorrelation env x y o).warns = (distanceCorrelationSqr env x y o).warns ∧
    Related (fun s r => IsRoot s.covarianceXY r.covarianceXY ∧
        IsRoot s.correlationXY r.correlationXY ∧ IsRoot s.varianceX r.varianceX ∧
        IsRoot s.varianceY r.varianceY)
      (distanceStatsSqr env x y o).out (distanceStats env x y o).out ∧
    (distanceStats env x y o).warns = (distanceStatsSqr env x y o).warns := by
  have h1 := related_bind IsRoot (distanceCovarianceSqr env x y o) sqrtClip isRoot_sqrtClip
  have h2 := related_bind IsRoot (distanceCorrelationSqr env x y o) sqrtClip isRoot_sqrtClip
  have h3 := related_bind (fun s r : Stats => IsRoot s.covarianceXY r.covarianceXY ∧
        IsRoot s.correlationXY r.correlationXY ∧ IsRoot s.varianceX r.varianceX ∧
        IsRoot s.varianceY r.varianceY) (distanceStatsSqr env x y o)
    (fun s => ⟨sqrtClip s.covarianceXY, sqrtClip s.correlationXY, sqrtClip s.varianceX,
      sqrtClip s.varianceY⟩)
    (fun s => ⟨isRoot_sqrtClip _, isRoot_sqrtClip _, isRoot_sqrtClip _, isRoot_sqrtClip _⟩)
  exact ⟨h1.1, h1.2, h2.1, h2.2, h3.1, h3.2⟩

/-! ### C52 -/

/-- The one-column matrix with the entries of a vector; other arrays are kept. -/
def asColumn (x : Arr) : Arr :=
  { x with data := match x.data with
      | .vec n v => .mat n 1 (fun i _ => v i)
      | d => d }

private theorem dcovTerms_asColumn (m : Method) (x y : Arr) (α : ℝ) (cm : CompileMode)
    (rv : Bool) :
    dcovTerms env m (asColumn x) (asColumn y) α cm rv = dcovTerms env m x y α cm rv := by
  rcases x with ⟨nx, dx, xd⟩
  rcases y with ⟨ny, dy, yd⟩
  cases xd <;> cases yd <;> cases m <;> rfl

private theorem statsSqr_asColumn (m : Method) (x y : Arr) (α : ℝ) (cm : CompileMode)
    (b : Bool) :
    statsSqr env m (asColumn x) (asColumn y) α cm b = statsSqr env m x y α cm b := by
  unfold statsSqr
  rw [dcovTerms_asColumn]
  rfl

/-- C52: replacing vectors by one-column matrices changes nothing: neither values, exceptions nor
warnings, for all inputs and options. -/
theorem C52_column_inputs (env : Env) (x y : Arr) (o : Opts) :
    distanceCovarianceSqr env (asColumn x) (asColumn y) o = distanceCovarianceSqr env x y o ∧
    uDistanceCovarianceSqr env (asColumn x) (asColumn y) o = uDistanceCovarianceSqr env x y o ∧
    distanceCovariance env (asColumn x) (asColumn y) o = distanceCovariance env x y o ∧
    distanceStatsSqr env (asColumn x) (asColumn y) o = distanceStatsSqr env x y o ∧
    uDistanceStatsSqr env (asColumn x) (asColumn y) o = uDistanceStatsSqr env x y o ∧
    distanceStats env (asColumn x) (asColumn y) o = distanceStats env x y o ∧
    distanceCorrelationSqr env (asColumn x) (asColumn y) o = distanceCorrelationSqr env x y o ∧
    uDistanceCorrelationSqr env (asColumn x) (asColumn y) o
      = uDistanceCorrelationSqr env x y o ∧
    distanceCorrelation env (asColumn x) (asColumn y) o = distanceCorrelation env x y o := by
  simp only [distanceCovarianceSqr, uDistanceCovarianceSqr, distanceCovariance, distanceStatsSqr,
    uDistanceStatsSqr, distanceStats, distanceCorrelationSqr, uDistanceCorrelationSqr,
    distanceCorrelation, dcovSqr, statsSqr_asColumn, dcovTerms_asColumn, and_self]

example (v : Fin 3 → ℝ) : asColumn (npVec v) = npMat fun i (_ : Fin 1) => v i := rfl

end Dcor.Props

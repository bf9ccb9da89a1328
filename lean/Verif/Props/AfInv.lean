/-
Properties C20, C58, C59: the affinely invariant distance correlation.
-/
import Verif.Proofs.AfInv
import Verif.Proofs.Nonneg
import Verif.Props.Witness
import Mathlib.LinearAlgebra.Matrix.Notation

namespace Dcor.Props

open Finset

variable {n p q p' q' : ℕ} {env : Env} {x y x' y' : Arr} {m m' : MethodLike} {cm cm' : CompileMode}
  {X : Fin n → Fin p → ℝ} {Y : Fin n → Fin q → ℝ}

/-- Two multivariate `float64` samples are supported by the naive method. -/
theorem afSupported_mat (hn : 2 ≤ n) (X : Fin n → Fin p → ℝ) (Y : Fin n → Fin q → ℝ) :
    AfSupported stdEnv (npMat X) (npMat Y) (.enum .naive) .auto X Y :=
  ⟨npMat_holds X, npMat_holds Y, hn, rfl, rfl, .naive, rfl, Or.inl rfl,
    fun h => by simp [npMat, DType.scaled] at h, zero_le_one, Iff.rfl⟩

/-- Univariate `float64` samples are supported by AVL. -/
theorem afSupported_vec (hn : 3 < n) (v w : Fin n → ℝ) :
    AfSupported stdEnv (npVec v) (npVec w) (.enum .avl) .auto (fun i (_ : Fin 1) => v i)
      (fun i (_ : Fin 1) => w i) :=
  ⟨npVec_holds v, npVec_holds w, by omega, rfl, rfl, .avl, rfl, rfl, rfl, rfl, hn, Or.inl rfl,
    nofun, nofun, by simp [npVec, DType.scaled]⟩

/-! ### C20 -/

/-- C20: both functions return a number, which does not change when both samples are replaced by
their images under affine maps `x ↦ x M + b` and `y ↦ y N + c`, whatever eigendecompositions are
used in either call. `M` and `N` have a right inverse; for square matrices this means that they are
invertible. The covariance matrices may even be singular (in exact arithmetic). -/
theorem C20_affine_invariance (e₁ e₂ : Eigh) (h : AfSupported env x y m cm X Y)
    (M : Matrix (Fin p) (Fin p') ℝ) (M' : Matrix (Fin p') (Fin p) ℝ) (hM : M * M' = 1)
    (N : Matrix (Fin q) (Fin q') ℝ) (N' : Matrix (Fin q') (Fin q) ℝ) (hN : N * N' = 1)
    (b : Fin p' → ℝ) (c : Fin q' → ℝ)
    (h' : AfSupported env x' y' m' cm' (affineRows X M b) (affineRows Y N c)) :
    ∃ r : ℝ,
      (distanceCorrelationAfInvSqr e₁ env x y m cm).out = .ok (.fin r) ∧
      (distanceCorrelationAfInvSqr e₂ env x' y' m' cm').out = .ok (.fin r) ∧
      (distanceCorrelationAfInv e₁ env x y m cm).out = .ok (.fin (Real.sqrt r)) ∧
      (distanceCorrelationAfInv e₂ env x' y' m' cm').out = .ok (.fin (Real.sqrt r)) := by
  refine ⟨_, afInvSqr_ok e₁ h, ?_, afInv_ok e₁ h, ?_⟩
  · rw [afInvSqr_ok e₂ h', afInv_distMat e₁ e₂ h.two X M M' hM b,
      afInv_distMat e₁ e₂ h.two Y N N' hN c]
  · rw [afInv_ok e₂ h', afInv_distMat e₁ e₂ h.two X M M' hM b,
      afInv_distMat e₁ e₂ h.two Y N N' hN c]

/-- Shear and translation of a bivariate sample, change of units of the other one. -/
example := C20_affine_invariance stdEigh stdEigh
  (afSupported_mat (n := 3) (by norm_num) ![![0, 1], ![2, 5], ![3, (3 : ℝ)]] ![![0], ![2], ![(3 : ℝ)]])
  !![1, 1; 0, 1] !![1, -1; 0, 1] (by simp [← Matrix.one_fin_two])
  !![2] !![1 / 2] (by ext i j; fin_cases i; fin_cases j; simp)
  ![7, -2] ![5] (afSupported_mat (by norm_num) _ _)

/-- C20: for all arguments, calls with different eigendecompositions have the same outcome
(value, exception and warnings). -/
theorem C20_eigenvectors_irrelevant (e₁ e₂ : Eigh) (env : Env) (x y : Arr) (m : MethodLike)
    (cm : CompileMode) :
    distanceCorrelationAfInvSqr e₁ env x y m cm = distanceCorrelationAfInvSqr e₂ env x y m cm ∧
    distanceCorrelationAfInv e₁ env x y m cm = distanceCorrelationAfInv e₂ env x y m cm := by
  have hs : ∀ a, afInvScaled e₁ a = afInvScaled e₂ a := by
    intro a
    unfold afInvScaled
    congr 1
    funext A
    rw [afInvRows_eigh e₁ e₂]
  have h : distanceCorrelationAfInvSqr e₁ env x y m cm
      = distanceCorrelationAfInvSqr e₂ env x y m cm := by
    unfold distanceCorrelationAfInvSqr
    rw [hs, hs]
  refine ⟨h, ?_⟩
  unfold distanceCorrelationAfInv
  rw [h]

/-- There are different decompositions: the eigenvectors can be multiplied by `-1`. -/
example : ∃ e₁ e₂ : Eigh, (e₁.eig (1 : Matrix (Fin 2) (Fin 2) ℝ)).2
    ≠ (e₂.eig (1 : Matrix (Fin 2) (Fin 2) ℝ)).2 := by
  refine ⟨stdEigh, ⟨fun A => ((stdEigh.eig A).1, -(stdEigh.eig A).2), ?_, ?_⟩, ?_⟩
  · intro p A hA
    simpa using stdEigh.orthonormal A hA
  · intro p A hA
    simpa using stdEigh.decomposition A hA
  · intro h
    have hs : (1 : Matrix (Fin 2) (Fin 2) ℝ).IsSymm := Matrix.transpose_one
    have h0 : (stdEigh.eig (1 : Matrix (Fin 2) (Fin 2) ℝ)).2 = 0 := by
      ext i j
      have := congrFun (congrFun h i) j
      simp only [Matrix.neg_apply] at this
      rw [Matrix.zero_apply]
      linarith
    have h1 := stdEigh.orthonormal (1 : Matrix (Fin 2) (Fin 2) ℝ) hs
    rw [h0, Matrix.mul_zero] at h1
    simpa using congrFun (congrFun h1 0) 0

/-! ### C58 -/

/-- C58: the result is the distance correlation of whitened samples: of any images `x'`, `y'` of the
samples under invertible affine maps whose components are uncorrelated with unit variance. -/
theorem C58_correlation_of_whitened (eg : Eigh) (h : AfSupported env x y m cm X Y)
    (M : Matrix (Fin p) (Fin p) ℝ) (M' : Matrix (Fin p) (Fin p) ℝ) (hM : M * M' = 1)
    (N : Matrix (Fin q) (Fin q) ℝ) (N' : Matrix (Fin q) (Fin q) ℝ) (hN : N * N' = 1)
    (b : Fin p → ℝ) (c : Fin q → ℝ) (hX : Spec.White (affineRows X M b))
    (hY : Spec.White (affineRows Y N c)) {m' : MethodLike} {cm' : CompileMode}
    (h' : Supported env x' y' { method := m', compileMode := cm' } (affineRows X M b)
      (affineRows Y N c)) :
    (distanceCorrelationAfInvSqr eg env x y m cm).out
      = (distanceCorrelationSqr env x' y' { method := m', compileMode := cm' }).out ∧
    (distanceCorrelationAfInv eg env x y m cm).out
      = (distanceCorrelation env x' y' { method := m', compileMode := cm' }).out := by
  have hn := h.two
  have hn1 : (0 : ℝ) < ((n : ℝ) - 1)⁻¹ := by
    have : (2 : ℝ) ≤ n := by exact_mod_cast hn
    exact inv_pos.mpr (by linarith)
  rw [afInvSqr_ok eg h, afInv_ok eg h, distanceCorrelationSqr_ok h' (by omega),
    distanceCorrelation_ok h' (by omega), afInv_white_distMat eg hn X M M' hM b hX,
    afInv_white_distMat eg hn Y N N' hN c hY, Spec.dcorSqr_smul_left hn1, Spec.dcorSqr_comm,
    Spec.dcorSqr_smul_left hn1, Spec.dcorSqr_comm]
  exact ⟨rfl, rfl⟩

/-- The corners and the centre of a square, whose components are uncorrelated with unit variance, after
stretching it horizontally. -/
example := C58_correlation_of_whitened stdEigh
  (afSupported_mat (n := 5) (by norm_num)
    !![2, 1; 2, -1; -2, 1; -2, -1; (0 : ℝ), 0] !![1, 1; -1, -1; 1, -1; -1, 1; (0 : ℝ), 0])
  !![1 / 2, 0; 0, 1] !![2, 0; 0, 1] (by simp [← Matrix.one_fin_two])
  !![1, 0; 0, 1] !![1, 0; 0, 1] (by simp [← Matrix.one_fin_two]) ![0, 0] ![3, 0]
  (by
    intro k l
    fin_cases k <;> fin_cases l <;>
      norm_num [Spec.sampleCov, affineRows, Fin.sum_univ_succ])
  (by
    intro k l
    fin_cases k <;> fin_cases l <;>
      norm_num [Spec.sampleCov, affineRows, Fin.sum_univ_succ])
  (supported_mat _ _ 1 zero_le_one)

/-- C58: for univariate samples the result is the distance correlation of the samples themselves. -/
theorem C58_univariate_equals_dcor (eg : Eigh) {X Y : Fin n → Fin 1 → ℝ}
    (h : AfSupported env x y m cm X Y) {m' : MethodLike} {cm' : CompileMode}
    (h' : Supported env x' y' { method := m', compileMode := cm' } X Y) :
    (distanceCorrelationAfInvSqr eg env x y m cm).out
      = (distanceCorrelationSqr env x' y' { method := m', compileMode := cm' }).out ∧
    (distanceCorrelationAfInv eg env x y m cm).out
      = (distanceCorrelation env x' y' { method := m', compileMode := cm' }).out := by
  have hn := h.two
  obtain ⟨s, hs, hX⟩ := afInv_univariate eg hn X
  obtain ⟨t, ht, hY⟩ := afInv_univariate eg hn Y
  rw [afInvSqr_ok eg h, afInv_ok eg h, distanceCorrelationSqr_ok h' (by omega),
    distanceCorrelation_ok h' (by omega), hX, hY, Spec.dcorSqr_smul_left hs, Spec.dcorSqr_comm,
    Spec.dcorSqr_smul_left ht, Spec.dcorSqr_comm]
  exact ⟨rfl, rfl⟩

example := C58_univariate_equals_dcor stdEigh
  (afSupported_vec (n := 4) (by norm_num) ![0, 3, 3, (1 : ℝ)] ![2, 1, 0, (5 : ℝ)])
  (supported_vec (by norm_num) _ _ .mergesort .noCompile (Or.inr rfl))

/-! ### C59 -/

/-- C59: the result is a number between zero and one. -/
theorem C59_range (eg : Eigh) (h : AfSupported env x y m cm X Y) :
    ∃ r : ℝ, (distanceCorrelationAfInv eg env x y m cm).out = .ok (.fin r) ∧
      (distanceCorrelationAfInvSqr eg env x y m cm).out = .ok (.fin (r ^ 2)) ∧ 0 ≤ r ∧ r ≤ 1 := by
  refine ⟨_, afInv_ok eg h, ?_, Real.sqrt_nonneg _, ?_⟩
  · rw [Real.sq_sqrt (Spec.dcorSqr_nonneg _ _ zero_lt_one one_le_two), afInvSqr_ok eg h]
  · exact Real.sqrt_le_one.mpr (abs_le.1 (Spec.abs_dcorSqr_le_one _ _)).2

example := C59_range stdEigh
  (afSupported_mat (n := 3) (by norm_num) ![![0, 1], ![2, 5], ![3, (3 : ℝ)]] ![![0], ![2], ![(3 : ℝ)]])

/-- C59: the result is one when the second sample is an invertible affine image of the first, unless
all observations are equal, and zero in that case. -/
theorem C59_affine_dependence (eg : Eigh) (M : Matrix (Fin p) (Fin p') ℝ)
    (M' : Matrix (Fin p') (Fin p) ℝ) (hM : M * M' = 1) (b : Fin p' → ℝ)
    (h : AfSupported env x y m cm X (affineRows X M b)) :
    ((∃ i j, X i ≠ X j) → (distanceCorrelationAfInv eg env x y m cm).out = .ok (.fin 1)) ∧
    ((∀ i j, X i = X j) → (distanceCorrelationAfInv eg env x y m cm).out = .ok (.fin 0)) := by
  have hn := h.two
  rw [afInv_ok eg h, afInv_distMat eg eg hn X M M' hM b]
  constructor
  · rintro ⟨i, j, hij⟩
    have hv : Spec.dcovSqr (Spec.distMat 1 (afInvRows eg X)) (Spec.distMat 1 (afInvRows eg X)) ≠ 0 := by
      intro h0
      rw [Spec.dvar_eq_zero (by omega) zero_lt_one] at h0
      exact hij (afInv_constant eg hn X h0 i j)
    rw [(Spec.dcorSqr_eq_one (by omega) _ _ (Spec.distMat_symm 1 _) (Spec.distMat_symm 1 _)
      (Spec.distMat_diag one_ne_zero _) (Spec.distMat_diag one_ne_zero _) hv hv).2
      ⟨1, one_pos, (one_smul _ _).symm⟩, Real.sqrt_one]
  · intro hc
    have hc' : ∀ i j, afInvRows eg X i = afInvRows eg X j := by
      intro i j
      funext k
      unfold afInvRows
      rw [Matrix.mul_apply, Matrix.mul_apply]
      simp only [Matrix.of_apply, hc i j]
    have h0 := (Spec.dvar_eq_zero (n := n) (by omega) zero_lt_one (afInvRows eg X)).2 hc'
    rw [show Spec.dcorSqr (Spec.distMat 1 (afInvRows eg X)) (Spec.distMat 1 (afInvRows eg X)) = 0 by
      simp [Spec.dcorSqr, Spec.ratio, h0], Real.sqrt_zero]

/-- Bivariate sample with a shear: non-constant, so the first part applies. -/
example := (C59_affine_dependence stdEigh !![1, 1; 0, 1] !![1, -1; 0, 1]
  (by simp [← Matrix.one_fin_two]) ![7, -2]
  (afSupported_mat (n := 3) (by norm_num) ![![0, 1], ![2, 5], ![3, (3 : ℝ)]] _)).1
  ⟨0, 1, fun h => by simpa using congrFun h 0⟩

end Dcor.Props

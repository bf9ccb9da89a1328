/-
Properties C10, C11, C55: the squared distance covariance is never negative, the correlation lies
in `[0, 1]`, and the covariance vanishes exactly for independent empirical distributions.
-/
import Verif.Proofs.Nonneg
import Verif.Props.Witness

namespace Dcor.Props

open Finset

variable {n p q : ℕ} {env : Env} {x y : Arr} {o : Opts} {X : Fin n → Fin p → ℝ}
  {Y : Fin n → Fin q → ℝ}

private theorem dcovSqr_nonneg' {α : ℝ} (h0 : 0 ≤ α) (h2 : α ≤ 2) :
    0 ≤ Spec.dcovSqr (Spec.distMat α X) (Spec.distMat α Y) := by
  rcases h0.lt_or_eq with h | rfl
  · exact Spec.dcovSqr_nonneg X Y h h2
  · have hz : Spec.centre (Spec.distMat 0 X) = 0 := by
      rcases Nat.eq_zero_or_pos n with rfl | hn
      · funext i; exact i.elim0
      have hn' : (n : ℝ) ≠ 0 := by positivity
      funext i j
      simp only [Spec.centre, Spec.distMat, Spec.dist, Real.rpow_zero, sum_const, card_univ,
        Fintype.card_fin, nsmul_eq_mul, mul_one, Pi.zero_apply]
      field_simp
      ring
    rw [Spec.dcovSqr, hz]
    simp

/-! ### C10 -/

/-- C10: for exponents in `[0, 2]` the squared covariance is a non-negative number, so that the
root function loses nothing by clamping: its square is the squared covariance. -/
theorem C10_covariance_nonneg (h : Supported env x y o X Y) (hn : 0 < n) (he : o.exponent ≤ 2) :
    ∃ c r : ℝ, (distanceCovarianceSqr env x y o).out = .ok (.fin c) ∧ 0 ≤ c ∧
      (distanceCovariance env x y o).out = .ok (.fin r) ∧ 0 ≤ r ∧ r ^ 2 = c := by
  have h0 : 0 ≤ Spec.dcovSqr (Spec.distMat o.exponent X) (Spec.distMat o.exponent Y) :=
    dcovSqr_nonneg' h.exponent_nonneg he
  exact ⟨_, _, distanceCovarianceSqr_ok h hn, h0, distanceCovariance_ok h hn, Real.sqrt_nonneg _,
    Real.sq_sqrt h0⟩

example := C10_covariance_nonneg (supported_mat (n := 4)
  ![![0, 1], ![2, 5], ![3, 3], ![(1 : ℝ), 1]] ![![0], ![2], ![3], ![(1 : ℝ)]] (3 / 2)
  (by norm_num)) (by norm_num) (by norm_num)

private theorem dist_four (u v : Fin 1 → ℝ) : Spec.dist 4 u v = (u 0 - v 0) ^ 4 := by
  rw [Spec.dist_eq_sqDist_rpow, Spec.sqDist]
  have : (4 : ℝ) / 2 = ((2 : ℕ) : ℝ) := by norm_num
  rw [this, Real.rpow_natCast, Fin.sum_univ_one]
  ring

/-- C10: the range of exponents cannot be dropped: with exponent 4 the squared covariance of the
samples `0, 1, 2` and `0, 1, 0` is negative, and `distance_covariance` then reports 0. -/
theorem C10_negative_for_exponent_four :
    ∃ c : ℝ, (distanceCovarianceSqr stdEnv (npMat ![![0], ![1], ![(2 : ℝ)]])
        (npMat ![![0], ![1], ![(0 : ℝ)]]) ⟨4, .enum .naive, .auto⟩).out = .ok (.fin c) ∧ c < 0 ∧
      (distanceCovariance stdEnv (npMat ![![0], ![1], ![(2 : ℝ)]])
        (npMat ![![0], ![1], ![(0 : ℝ)]]) ⟨4, .enum .naive, .auto⟩).out = .ok (.fin 0) := by
  have h := supported_mat (n := 3) ![![0], ![1], ![(2 : ℝ)]] ![![0], ![1], ![(0 : ℝ)]] 4
    (by norm_num)
  have hc : Spec.dcovSqr (Spec.distMat 4 ![![0], ![1], ![(2 : ℝ)]])
      (Spec.distMat 4 ![![0], ![1], ![(0 : ℝ)]]) < 0 := by
    simp only [Spec.dcovSqr, Spec.centre, Spec.distMat, dist_four]
    simp [Fin.sum_univ_succ]
    norm_num
  refine ⟨_, distanceCovarianceSqr_ok h (by norm_num), hc, ?_⟩
  rw [distanceCovariance_ok h (by norm_num)]
  simp only [Except.ok.injEq, FP.fin_inj]
  exact Real.sqrt_eq_zero_of_nonpos hc.le

/-! ### C11 -/

/-- C11: for exponents in `[0, 2]` both correlations are numbers in `[0, 1]`. -/
theorem C11_correlation_range (h : Supported env x y o X Y) (hn : 0 < n) (he : o.exponent ≤ 2) :
    ∃ c r : ℝ, (distanceCorrelationSqr env x y o).out = .ok (.fin c) ∧ 0 ≤ c ∧ c ≤ 1 ∧
      (distanceCorrelation env x y o).out = .ok (.fin r) ∧ 0 ≤ r ∧ r ≤ 1 ∧ r ^ 2 = c := by
  have h0 : 0 ≤ Spec.dcorSqr (Spec.distMat o.exponent X) (Spec.distMat o.exponent Y) := by
    unfold Spec.dcorSqr Spec.ratio
    split_ifs
    · exact le_rfl
    · exact div_nonneg (dcovSqr_nonneg' h.exponent_nonneg he) (Real.sqrt_nonneg _)
  have h1 := (abs_le.1 (Spec.abs_dcorSqr_le_one (Spec.distMat o.exponent X)
    (Spec.distMat o.exponent Y))).2
  exact ⟨_, _, distanceCorrelationSqr_ok h hn, h0, h1, distanceCorrelation_ok h hn,
    Real.sqrt_nonneg _, Real.sqrt_le_one.2 h1, Real.sq_sqrt h0⟩

/-- C11: whatever the exponent, `distance_correlation` is in `[0, 1]` and its square in
`[-1, 1]`. -/
theorem C11_correlation_range_any_exponent (h : Supported env x y o X Y) (hn : 0 < n) :
    ∃ c r : ℝ, (distanceCorrelationSqr env x y o).out = .ok (.fin c) ∧ -1 ≤ c ∧ c ≤ 1 ∧
      (distanceCorrelation env x y o).out = .ok (.fin r) ∧ 0 ≤ r ∧ r ≤ 1 := by
  have h1 := abs_le.1 (Spec.abs_dcorSqr_le_one (Spec.distMat o.exponent X)
    (Spec.distMat o.exponent Y))
  exact ⟨_, _, distanceCorrelationSqr_ok h hn, h1.1, h1.2, distanceCorrelation_ok h hn,
    Real.sqrt_nonneg _, Real.sqrt_le_one.2 h1.2⟩

example := C11_correlation_range (supported_vec (n := 4) (by norm_num) ![0, 3, 3, (1 : ℝ)]
  ![0, 6, -6, (2 : ℝ)] .mergesort .noCompile (Or.inr rfl)) (by norm_num)
  (by norm_num : (1 : ℝ) ≤ 2)
example := C11_correlation_range_any_exponent (supported_mat (n := 3) ![![0], ![1], ![(2 : ℝ)]]
  ![![0], ![1], ![(0 : ℝ)]] 4 (by norm_num)) (by norm_num)

/-! ### C55 -/

open Classical in
/-- The empirical joint distribution of the pairs `(X_i, Y_i)` is the product of its marginals:
`n · #{i | X_i = z, Y_i = w} = #{i | X_i = z} · #{i | Y_i = w}`. -/
def EmpiricallyIndependent (X : Fin n → Fin p → ℝ) (Y : Fin n → Fin q → ℝ) : Prop :=
  ∀ z w, n * (univ.filter fun i => X i = z ∧ Y i = w).card
    = (univ.filter fun i => X i = z).card * (univ.filter fun i => Y i = w).card

open Classical in
private theorem independent_iff (hn : 0 < n) : EmpiricallyIndependent X Y ↔
    ∀ z w, ∑ i, Spec.ind X z i * Spec.ind Y w i
      = (∑ i, Spec.ind X z i) * (∑ i, Spec.ind Y w i) / n := by
  have hn' : (n : ℝ) ≠ 0 := by positivity
  refine forall_congr' fun z => forall_congr' fun w => ?_
  have e1 : ∑ i, Spec.ind X z i = ((univ.filter fun i => X i = z).card : ℝ) := by
    simp [Spec.ind]
  have e2 : ∑ i, Spec.ind Y w i = ((univ.filter fun i => Y i = w).card : ℝ) := by
    simp [Spec.ind]
  have e3 : ∑ i, Spec.ind X z i * Spec.ind Y w i
      = ((univ.filter fun i => X i = z ∧ Y i = w).card : ℝ) := by
    simp [Spec.ind, ← ite_and, and_comm]
  rw [e1, e2, e3, eq_div_iff hn', mul_comm]
  norm_cast

/-- C55: for exponents in `(0, 2)` the distance covariance and the distance correlation are zero
exactly when the samples are empirically independent. -/
theorem C55_zero_iff_independent (h : Supported env x y o X Y) (hn : 0 < n)
    (he : 0 < o.exponent) (he2 : o.exponent < 2) :
    ((distanceCovarianceSqr env x y o).out = .ok (.fin 0) ↔ EmpiricallyIndependent X Y) ∧
    ((distanceCovariance env x y o).out = .ok (.fin 0) ↔ EmpiricallyIndependent X Y) ∧
    ((distanceCorrelationSqr env x y o).out = .ok (.fin 0) ↔ EmpiricallyIndependent X Y) ∧
    ((distanceCorrelation env x y o).out = .ok (.fin 0) ↔ EmpiricallyIndependent X Y) := by
  have key : Spec.dcovSqr (Spec.distMat o.exponent X) (Spec.distMat o.exponent Y) = 0 ↔
      EmpiricallyIndependent X Y := by
    rw [independent_iff hn]
    classical
    convert Spec.dcovSqr_eq_zero_iff hn X Y he he2
  have h0 := Spec.dcovSqr_nonneg X Y he he2.le
  have key2 : Spec.dcorSqr (Spec.distMat o.exponent X) (Spec.distMat o.exponent Y) = 0 ↔
      Spec.dcovSqr (Spec.distMat o.exponent X) (Spec.distMat o.exponent Y) = 0 := by
    unfold Spec.dcorSqr Spec.ratio
    split_ifs with hv
    · have hc := Spec.dcovSqr_cauchy (Spec.distMat o.exponent X) (Spec.distMat o.exponent Y)
      rw [hv] at hc
      simp only [true_iff]
      exact pow_eq_zero_iff two_ne_zero |>.mp (le_antisymm hc (sq_nonneg _))
    · rw [div_eq_zero_iff, or_iff_left]
      exact (Real.sqrt_pos.2 (abs_pos.2 hv)).ne'
  have h1 := Spec.dcorSqr_nonneg X Y he he2.le
  rw [distanceCovarianceSqr_ok h hn, distanceCovariance_ok h hn, distanceCorrelationSqr_ok h hn,
    distanceCorrelation_ok h hn]
  simp only [Except.ok.injEq, FP.fin_inj, Real.sqrt_eq_zero h0, Real.sqrt_eq_zero h1, key2, key,
    and_self]

example := C55_zero_iff_independent (supported_vec (n := 4) (by norm_num) ![0, 0, 1, (1 : ℝ)]
  ![0, 1, 0, (1 : ℝ)] .avl .auto (Or.inl rfl)) (by norm_num) zero_lt_one
  (by norm_num : (1 : ℝ) < 2)

/-- Independent and dependent samples: both sides of C55 occur. -/
example : EmpiricallyIndependent (n := 2) (fun _ _ => 0 : Fin 2 → Fin 1 → ℝ)
    (fun i _ => (i : ℝ) : Fin 2 → Fin 1 → ℝ) := by
  intro z w
  by_cases h : (fun _ => 0 : Fin 1 → ℝ) = z
  · subst h
    simp
  · simp [h]

end Dcor.Props

/-
C115: the distance variance and covariance compared with Gini's mean difference and the standard deviation.
-/
import Verif.Proofs.Dispersion
import Verif.Proofs.Api
import Verif.Props.Witness

namespace Dcor.Props

open Dcor

variable {env : Env} {x y : Arr} {o : Opts} {n p q : ℕ} {X : Fin n → Fin p → ℝ} {Y : Fin n → Fin q → ℝ}

/-- C115: the distance variance (`distance_covariance` of a sample with itself) is at most Gini's mean difference, and
its square is at most half the mean of the squared distances. -/
theorem C115_variance_bounds (h : Supported env x x o X X) (hn : 0 < n) (h0 : 0 < o.exponent) (h2 : o.exponent ≤ 2) :
    ∃ v : ℝ, (distanceCovariance env x x o).out = .ok (.fin v) ∧ v ≤ Spec.gini o.exponent X ∧
      v ^ 2 ≤ (∑ i, ∑ j, Spec.dist o.exponent (X i) (X j) ^ 2) / (2 * n ^ 2) :=
  ⟨_, distanceCovariance_ok h hn, Real.sqrt_le_iff.2 ⟨Spec.gini_nonneg _ _, Spec.dvar_le_gini hn X h0 h2⟩, by
    rw [Real.sq_sqrt (Spec.dcovSqr_self_nonneg _)]
    exact Spec.dvar_le_half hn X h0 h2⟩

/-- C115: with the default exponent, the distance variance is at most the standard deviation (for vectors, the root of the
sum of the variances of the components). -/
theorem C115_variance_le_sd (h : Supported env x x o X X) (hn : 0 < n) (he : o.exponent = 1) :
    ∃ v : ℝ, (distanceCovariance env x x o).out = .ok (.fin v) ∧ v ≤ Real.sqrt (Spec.totalVar X) := by
  refine ⟨_, distanceCovariance_ok h hn, Real.sqrt_le_sqrt ?_⟩
  rw [he, ← Spec.mean_sq_dist hn]
  exact Spec.dvar_le_half hn X one_pos one_le_two

/-- C115: the distance variance is Gini's mean difference exactly if there are at most two different observations. -/
theorem C115_variance_eq_gini_iff (h : Supported env x x o X X) (hn : 0 < n) (h0 : 0 < o.exponent)
    (h1 : o.exponent ≤ 1) :
    (distanceCovariance env x x o).out = .ok (.fin (Spec.gini o.exponent X)) ↔
      ∀ i j k, X i = X j ∨ X j = X k ∨ X i = X k := by
  rw [distanceCovariance_ok h hn, ← Spec.dvar_eq_gini_iff hn X h0 h1]
  have := Real.sqrt_eq_iff_eq_sq (Spec.dcovSqr_self_nonneg (Spec.distMat o.exponent X)) (Spec.gini_nonneg o.exponent X)
  simpa using this

/-- C115: with the default exponent, the distance variance is the standard deviation exactly if there are at most two
different observations, and equally many of each. -/
theorem C115_variance_eq_sd_iff (h : Supported env x x o X X) (hn : 0 < n) (he : o.exponent = 1) :
    (distanceCovariance env x x o).out = .ok (.fin (Real.sqrt (Spec.totalVar X))) ↔
      (∀ i j k, X i = X j ∨ X j = X k ∨ X i = X k) ∧
        ∀ i j, Fintype.card {k // X k = X i} = Fintype.card {k // X k = X j} := by
  rw [distanceCovariance_ok h hn, he, ← Spec.dvar_eq_half_iff hn X one_pos le_rfl, Spec.mean_sq_dist hn]
  have := Real.sqrt_inj (Spec.dcovSqr_self_nonneg (Spec.distMat 1 X)) (Spec.totalVar_nonneg hn X)
  simpa using this

/-- C115: the squared distance covariance is at most the product of Gini's mean differences, and with the default exponent
at most the product of the standard deviations. -/
theorem C115_covariance_bounds (h : Supported env x y o X Y) (hn : 0 < n) (h0 : 0 < o.exponent) (h2 : o.exponent ≤ 2) :
    ∃ c : ℝ, (distanceCovarianceSqr env x y o).out = .ok (.fin c) ∧
      c ≤ Spec.gini o.exponent X * Spec.gini o.exponent Y ∧
      (o.exponent = 1 → c ≤ Real.sqrt (Spec.totalVar X) * Real.sqrt (Spec.totalVar Y)) := by
  refine ⟨_, distanceCovarianceSqr_ok h hn, ?_, fun he => ?_⟩
  · refine abs_le_of_sq_le_sq' ?_ (mul_nonneg (Spec.gini_nonneg _ _) (Spec.gini_nonneg _ _)) |>.2
    rw [mul_pow]
    exact (Spec.dcovSqr_cauchy _ _).trans (mul_le_mul (Spec.dvar_le_gini hn X h0 h2) (Spec.dvar_le_gini hn Y h0 h2)
      (Spec.dcovSqr_self_nonneg _) (sq_nonneg _))
  · refine abs_le_of_sq_le_sq' ?_ (mul_nonneg (Real.sqrt_nonneg _) (Real.sqrt_nonneg _)) |>.2
    rw [mul_pow, Real.sq_sqrt (Spec.totalVar_nonneg hn X), Real.sq_sqrt (Spec.totalVar_nonneg hn Y), he]
    refine (Spec.dcovSqr_cauchy _ _).trans (mul_le_mul ?_ ?_ (Spec.dcovSqr_self_nonneg _) (Spec.totalVar_nonneg hn X))
    · rw [← Spec.mean_sq_dist hn]
      exact Spec.dvar_le_half hn X one_pos one_le_two
    · rw [← Spec.mean_sq_dist hn]
      exact Spec.dvar_le_half hn Y one_pos one_le_two

example := C115_variance_bounds (supported_mat (n := 3) ![![0, 1], ![2, 5], ![3, (3 : ℝ)]] ![![0, 1], ![2, 5], ![3, (3 : ℝ)]]
  (3 / 2) (by norm_num)) (by norm_num) (by norm_num) (by norm_num)
example := C115_variance_le_sd (supported_vec (n := 4) (by norm_num) ![0, 3, 3, (1 : ℝ)] ![0, 3, 3, (1 : ℝ)] .mergesort
  .noCompile (Or.inr rfl)) (by norm_num) rfl
example := C115_covariance_bounds (supported_vec (n := 4) (by norm_num) ![0, 3, 3, (1 : ℝ)] ![0, 6, -6, (2 : ℝ)] .avl
  .auto (Or.inl rfl)) (by norm_num) one_pos one_le_two

/-- The distance variance of `[0, 0, 1, 1]` is its standard deviation, that of `[0, 0, 1]` its mean difference. -/
example : (distanceCovariance stdEnv (npMat ![![0], ![0], ![1], ![(1 : ℝ)]]) (npMat ![![0], ![0], ![1], ![(1 : ℝ)]])
    ⟨1, .enum .naive, .auto⟩).out = .ok (.fin (Real.sqrt (Spec.totalVar ![![0], ![0], ![1], ![(1 : ℝ)]]))) :=
  (C115_variance_eq_sd_iff (supported_mat ![![0], ![0], ![1], ![(1 : ℝ)]] ![![0], ![0], ![1], ![(1 : ℝ)]] 1
    (by norm_num)) (by norm_num) rfl).2 ⟨by
      intro i j k
      fin_cases i <;> fin_cases j <;> fin_cases k <;> simp, by
      have c : ∀ v : Fin 1 → ℝ, v = ![0] ∨ v = ![1] →
          Fintype.card {k : Fin 4 // (![![0], ![0], ![1], ![(1 : ℝ)]] : Fin 4 → Fin 1 → ℝ) k = v} = 2 := by
        rintro v (rfl | rfl)
        · rw [Fintype.card_subtype]
          rw [show (Finset.univ.filter fun k : Fin 4 => (![![0], ![0], ![1], ![(1 : ℝ)]] : Fin 4 → Fin 1 → ℝ) k = ![0])
            = {0, 1} by ext k; fin_cases k <;> simp]
          rfl
        · rw [Fintype.card_subtype]
          rw [show (Finset.univ.filter fun k : Fin 4 => (![![0], ![0], ![1], ![(1 : ℝ)]] : Fin 4 → Fin 1 → ℝ) k = ![1])
            = {2, 3} by ext k; fin_cases k <;> simp]
          rfl
      intro i j
      rw [c _ (by fin_cases i <;> simp), c _ (by fin_cases j <;> simp)]⟩

example : (distanceCovariance stdEnv (npMat ![![0], ![0], ![(1 : ℝ)]]) (npMat ![![0], ![0], ![(1 : ℝ)]])
    ⟨1, .enum .naive, .auto⟩).out = .ok (.fin (Spec.gini 1 ![![0], ![0], ![(1 : ℝ)]])) :=
  (C115_variance_eq_gini_iff (supported_mat ![![0], ![0], ![(1 : ℝ)]] ![![0], ![0], ![(1 : ℝ)]] 1
    (by norm_num)) (by norm_num) one_pos le_rfl).2 (by
      intro i j k
      fin_cases i <;> fin_cases j <;> fin_cases k <;> simp)

end Dcor.Props

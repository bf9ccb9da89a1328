/-
Properties C34, C37, C41, C43, C44 for the independence tests.
-/
import Verif.Proofs.TTest
import Verif.Proofs.Unbiased
import Verif.Props.Resampling
import Mathlib.Analysis.SpecialFunctions.Trigonometric.Arctan

namespace Dcor.Props

open Finset

variable {S : Type} {env : Env} {rng : Rng S} {rs : RandomLike S} {nJobs : Option ℤ}
  {n p q t : ℕ} {x y z : Arr} {α : ℝ} {X : Fin n → Fin p → ℝ} {Y : Fin n → Fin q → ℝ}
  {Z : Fin n → Fin t → ℝ}

/-! ### C37 -/

/-- C37: the statistic of `distance_covariance_test` is `n` times the squared distance covariance, as
computed by any supported method. -/
theorem C37_dcov_statistic (h : DcovTestCall x y α X Y) {o : Opts} (ho : Supported env x y o X Y)
    (he : o.exponent = α) (hj : nJobs ≠ some 0) (B : ℕ) :
    ∃ v r s', (distanceCovarianceSqr env x y o).out = .ok (.fin v) ∧
      (distanceCovarianceTest env rng x y B α rs nJobs).out = .ok (r, s') ∧
      r.statistic = .fin (n * v) := by
  refine ⟨_, _, _, distanceCovarianceSqr_ok ho h.hn,
    congrArg PyM.out (distanceCovarianceTest_ok h hj B), ?_⟩
  rw [he]
  rfl

/-- C37: the statistic of `partial_distance_covariance_test` (exponent one) is `n` times the partial
distance covariance. -/
theorem C37_partial_statistic (h : PartialTestCall x y z 1 X Y Z) (hj : nJobs ≠ some 0) (B : ℕ) :
    ∃ v r s', (partialDistanceCovariance env x y z).out = .ok (.fin v) ∧
      (partialDistanceCovarianceTest env rng x y z B 1 rs nJobs).out = .ok (r, s') ∧
      r.statistic = .fin (n * v) := by
  exact ⟨_, _, _, congrArg PyM.out (partialDistanceCovariance_ok env h.hn h.hx h.hy h.hz),
    congrArg PyM.out (partialDistanceCovarianceTest_ok h hj B), rfl⟩

example := C37_dcov_statistic (env := stdEnv) (rng := shiftRng) (rs := .gen 0) (nJobs := some 2)
  (dcovTestCall_mat (by norm_num) exX exY (α := 3 / 2) (by norm_num))
  (supported_mat exX exY (3 / 2) (by norm_num)) rfl (by simp) 100
example := C37_partial_statistic (env := stdEnv) (rng := shiftRng) (rs := .gen 0) (nJobs := some 2)
  (partialTestCall_mat (by norm_num) exX exY exX zero_le_one) (by simp) 100

/-! ### C41 -/

open Classical in
/-- C41: each resampled statistic of `distance_covariance_test` is the statistic of the sample with the
observations of `x` permuted: the p-value compares the statistic of the test with the statistics of the
tests on the arrays `xs i`, which hold the observations of `x` in the order of the `i`-th permutation
drawn. -/
theorem C41_dcov_permutes_observations (h : DcovTestCall x y α X Y) {B : ℕ} {r : HypothesisTest}
    {s' : S} (hr : (distanceCovarianceTest env rng x y B α rs nJobs).out = .ok (r, s'))
    (xs : Fin B → Arr)
    (hxs : ∀ i : Fin B, DcovTestCall (xs i) y α
      (fun k => X (permAt rng n (randomStateInit rng rs) i k)) Y)
    {S' : Type} {rng' : Rng S'} {rs' : RandomLike S'} {nJobs' : Option ℤ} {B' : ℕ}
    (ri : Fin B → HypothesisTest)
    (hri : ∀ i, ∃ s, (distanceCovarianceTest env rng' (xs i) y B' α rs' nJobs').out
      = .ok (ri i, s)) :
    r.pvalue = (((univ.filter fun i => FP.lt r.statistic (ri i).statistic).card : ℝ) + 1)
      / ((B : ℝ) + 1) := by
  have hj : nJobs ≠ some 0 := by
    rintro rfl
    exact (C38_n_jobs (.dcov x y α) (nJobs := some 1) (nJobs' := some 1) (by simp) (by simp)).2 _ hr
  have hval := congrArg PyM.out (distanceCovarianceTest_ok (env := env) (rng := rng) (rs := rs) h hj
    B)
  rw [hr] at hval
  have h1 : r.statistic = .fin (Spec.dcovStat α X Y) := by cases hval; rfl
  have h2 : r.pvalue = Spec.permPvalue (.fin (Spec.dcovStat α X Y)) (fun i => .fin (Spec.dcovStat α
      (fun k => X (permAt rng n (randomStateInit rng rs) i k)) Y)) B := by cases hval; rfl
  have h3 : ∀ i : Fin B, (ri i).statistic = .fin (Spec.dcovStat α
      (fun k => X (permAt rng n (randomStateInit rng rs) i k)) Y) := by
    intro i
    obtain ⟨s, hs⟩ := hri i
    have hj' : nJobs' ≠ some 0 := by
      rintro rfl
      exact (C38_n_jobs (.dcov (xs i) y α) (nJobs := some 1) (nJobs' := some 1) (by simp)
        (by simp)).2 _ hs
    have := congrArg PyM.out (distanceCovarianceTest_ok (env := env) (rng := rng') (rs := rs')
      (hxs i) hj' B')
    rw [hs] at this
    simp only [Except.ok.injEq, Prod.mk.injEq] at this
    rw [this.1]
  rw [h2, Spec.permPvalue_fin]
  congr 3
  simp only [h1, h3]

example := C41_dcov_permutes_observations (env := stdEnv) (rng := shiftRng) (rs := .gen 5)
  (nJobs := some 2) (dcovTestCall_mat (by norm_num) exX exY (α := 3 / 2) (by norm_num))
  (congrArg PyM.out (distanceCovarianceTest_ok (dcovTestCall_mat (by norm_num) exX exY (by norm_num))
    (by simp) 7))
  (fun i => npMat fun k => exX (permAt shiftRng 4 5 i k))
  (fun i => dcovTestCall_mat (by norm_num) _ exY (by norm_num)) (rng' := shiftRng) (rs' := .gen 0)
  (nJobs' := none) (B' := 0) (fun i => ⟨1, .fin (Spec.dcovStat (3 / 2)
    (fun k => exX (permAt shiftRng 4 5 i k)) exY)⟩) (fun i => ⟨0, by
    rw [distanceCovarianceTest_ok (dcovTestCall_mat (by norm_num) _ exY (by norm_num)) (by simp) 0]
    simp [Spec.permPvalue, Spec.countAbove, stateAt, randomStateInit]⟩)

/-! ### C43 -/

private theorem tstat_ok (h : Supported env x y {} X Y) (hn : 3 < n) (hx : x.dtype ≠ .decimal)
    (hy : y.dtype ≠ .decimal) :
    ∃ r, |r| ≤ 1 ∧ (uDistanceCorrelationSqr env x y {}).out = .ok (.fin r) ∧
      (distanceCorrelationTStatistic env x y).out = .ok (tStatistic n (.fin r)) := by
  have h1 := uDistanceCorrelationSqr_ok h hn one_ne_zero
  refine ⟨_, Spec.abs_uDcorSqr_le_one hn _ _, h1, ?_⟩
  unfold distanceCorrelationTStatistic
  rw [PyM.bind_ok h1, if_neg (by tauto), h.1.shape0]
  rfl

/-- C43: `distance_correlation_t_statistic` is, with `r` the bias-corrected correlation, equal to
`√(n(n-3)/2 - 1) · r / √(1 - r²)`, `+inf` for `r = 1` and `-inf` for `r = -1`. -/
theorem C43_t_statistic_value (h : Supported env x y {} X Y) (hn : 3 < n) (hx : x.dtype ≠ .decimal)
    (hy : y.dtype ≠ .decimal) :
    ∃ r t, (uDistanceCorrelationSqr env x y {}).out = .ok (.fin r) ∧
      (distanceCorrelationTStatistic env x y).out = .ok t ∧
      (r = 1 → t = .pinf) ∧ (r = -1 → t = .ninf) ∧
      (r ≠ 1 → r ≠ -1 → t = .fin (Real.sqrt ((n : ℝ) * ((n : ℝ) - 3) / 2 - 1)
        * (r / Real.sqrt (1 - r ^ 2)))) := by
  obtain ⟨r, hr, h1, h2⟩ := tstat_ok h hn hx hy
  refine ⟨r, _, h1, h2, ?_, ?_, ?_⟩
  · rintro rfl
    exact tStatistic_one hn
  · rintro rfl
    exact tStatistic_neg_one hn
  · intro h3 h4
    refine tStatistic_inner hn (lt_of_le_of_ne hr ?_)
    intro e
    rcases (abs_eq zero_le_one).1 e with e | e
    · exact h3 e
    · exact h4 e

/-- C43: for a fixed number of observations, the t statistic is a strictly increasing and odd function
of the bias-corrected correlation. -/
theorem C43_t_statistic_increasing {p' q' : ℕ} {x' y' : Arr} {X' : Fin n → Fin p' → ℝ}
    {Y' : Fin n → Fin q' → ℝ} (h : Supported env x y {} X Y) (h' : Supported env x' y' {} X' Y')
    (hn : 3 < n) (hx : x.dtype ≠ .decimal) (hy : y.dtype ≠ .decimal) (hx' : x'.dtype ≠ .decimal)
    (hy' : y'.dtype ≠ .decimal) :
    ∃ r r' t t', (uDistanceCorrelationSqr env x y {}).out = .ok (.fin r) ∧
      (uDistanceCorrelationSqr env x' y' {}).out = .ok (.fin r') ∧
      (distanceCorrelationTStatistic env x y).out = .ok t ∧
      (distanceCorrelationTStatistic env x' y').out = .ok t' ∧
      (r < r' ↔ FP.lt t t') ∧ (r' = -r → t' = -t) := by
  obtain ⟨r, hr, h1, h2⟩ := tstat_ok h hn hx hy
  obtain ⟨r', hr', h1', h2'⟩ := tstat_ok h' hn hx' hy'
  refine ⟨r, r', _, _, h1, h1', h2, h2', ⟨tStatistic_strictMono hn hr hr', ?_⟩, ?_⟩
  · intro hlt
    by_contra hc
    have asymm : ∀ a b : FP ℝ, FP.lt a b → ¬ FP.lt b a := by
      intro a b hab hba
      cases a <;> cases b <;> first | exact hab | exact hba | exact absurd hab (lt_asymm hba)
    rcases (not_lt.1 hc).lt_or_eq with h3 | h3
    · exact asymm _ _ hlt (tStatistic_strictMono hn hr' hr h3)
    · rw [h3] at hlt
      exact asymm _ _ hlt hlt
  · rintro rfl
    exact tStatistic_neg hn hr

private theorem ttest_ok (T : StudentT) {v : FP ℝ}
    (h : (distanceCorrelationTStatistic env x y).out = .ok v) :
    (distanceCorrelationTTest env T x y).out
      = .ok (T.pvalue ((x.shape0 : ℝ) * ((x.shape0 : ℝ) - 3) / 2 - 1) v, v) := by
  unfold distanceCorrelationTTest
  rw [PyM.bind_ok h]
  rfl

/-- C43: the p-value of `distance_correlation_t_test` is a number between 0 and 1, it is 0 if the
correlation is 1, and the statistic reported is the t statistic. -/
theorem C43_pvalue_range (T : StudentT) (h : Supported env x y {} X Y) (hn : 3 < n)
    (hx : x.dtype ≠ .decimal) (hy : y.dtype ≠ .decimal) :
    ∃ r t a, (uDistanceCorrelationSqr env x y {}).out = .ok (.fin r) ∧
      (distanceCorrelationTStatistic env x y).out = .ok t ∧
      (distanceCorrelationTTest env T x y).out = .ok (.fin a, t) ∧ 0 ≤ a ∧ a ≤ 1 ∧
      (r = 1 ↔ a = 0) ∧ (r = -1 ↔ a = 1) := by
  obtain ⟨r, hr, h1, h2⟩ := tstat_ok h hn hx hy
  have h3 := ttest_ok T h2
  rw [h.1.shape0] at h3
  have hdf := tDof_pos hn
  unfold StudentT.pvalue at h3
  rw [if_neg (not_le.2 hdf)] at h3
  by_cases hr1 : r = 1
  · subst hr1
    rw [tStatistic_one hn] at h2 h3
    exact ⟨1, _, 0, h1, h2, h3, le_rfl, zero_le_one, by simp, by norm_num⟩
  by_cases hr2 : r = -1
  · subst hr2
    rw [tStatistic_neg_one hn] at h2 h3
    exact ⟨-1, _, 1, h1, h2, h3, zero_le_one, le_rfl, by norm_num, by simp⟩
  have hlt : |r| < 1 := by
    refine lt_of_le_of_ne hr fun e => ?_
    rcases (abs_eq zero_le_one).1 e with e | e
    · exact hr1 e
    · exact hr2 e
  rw [tStatistic_inner hn hlt] at h2 h3
  have hp := T.pos _ hdf (tScale n * (r / Real.sqrt (1 - r ^ 2)))
  have hl := T.lt_one _ hdf (tScale n * (r / Real.sqrt (1 - r ^ 2)))
  refine ⟨r, _, _, h1, h2, h3, by linarith, by linarith, ?_, ?_⟩
  · exact ⟨fun e => absurd e hr1, fun e => by linarith⟩
  · exact ⟨fun e => absurd e hr2, fun e => by linarith⟩

/-- C43: the p-value of `distance_correlation_t_test` is the upper tail of Student's distribution with
`n(n-3)/2 - 1` degrees of freedom (`n` the number of observations) at the statistic. -/
theorem C43_pvalue_tail (T : StudentT) (h : Supported env x y {} X Y) (hn : 3 < n) {a : FP ℝ} {t : ℝ}
    (hr : (distanceCorrelationTTest env T x y).out = .ok (a, .fin t)) :
    a = .fin (1 - T.cdf ((n * (n - 3) : ℝ) / 2 - 1) t) := by
  cases ht : (distanceCorrelationTStatistic env x y).out with
  | error e =>
    unfold distanceCorrelationTTest at hr
    rw [PyM.bind_err ht] at hr
    cases hr
  | ok w =>
    rw [ttest_ok T ht, h.1.shape0] at hr
    cases hr
    unfold StudentT.pvalue
    rw [if_neg (not_le.2 (tDof_pos hn))]

/-- C43: for a fixed number of observations, the larger the statistic the smaller the p-value. -/
theorem C43_pvalue_decreasing (T : StudentT) {x' y' : Arr} (hs : x.shape0 = x'.shape0)
    (hn : 3 < x.shape0) {a a' v v' : FP ℝ}
    (h : (distanceCorrelationTTest env T x y).out = .ok (a, v))
    (h' : (distanceCorrelationTTest env T x' y').out = .ok (a', v')) (hlt : FP.lt v v') :
    FP.lt a' a := by
  have aux : ∀ {x y : Arr} {a v : FP ℝ}, (distanceCorrelationTTest env T x y).out = .ok (a, v) →
      a = T.pvalue ((x.shape0 : ℝ) * ((x.shape0 : ℝ) - 3) / 2 - 1) v := by
    intro x y a v h
    cases ht : (distanceCorrelationTStatistic env x y).out with
    | error e =>
      unfold distanceCorrelationTTest at h
      rw [PyM.bind_err ht] at h
      cases h
    | ok w =>
      rw [ttest_ok T ht] at h
      cases h
      rfl
  have hdf := tDof_pos hn
  rw [aux h, aux h', ← hs]
  unfold StudentT.pvalue
  rw [if_neg (not_le.2 hdf), if_neg (not_le.2 hdf)]
  cases v with
  | nan => exact absurd hlt (by simp [FP.lt])
  | pinf => cases v' <;> exact absurd hlt (by simp [FP.lt])
  | fin b =>
    cases v' with
    | fin b' =>
      show (1 - T.cdf _ b' : ℝ) < 1 - T.cdf _ b
      have := T.strictMono _ hdf (show b < b' from hlt)
      linarith
    | pinf =>
      show (0 : ℝ) < 1 - T.cdf _ b
      have := T.lt_one _ hdf b
      linarith
    | ninf => exact absurd hlt (by simp [FP.lt])
    | nan => exact absurd hlt (by simp [FP.lt])
  | ninf =>
    cases v' with
    | fin b' =>
      show (1 - T.cdf _ b' : ℝ) < 1
      have := T.pos _ hdf b'
      linarith
    | pinf => exact zero_lt_one
    | ninf => exact absurd hlt (by simp [FP.lt])
    | nan => exact absurd hlt (by simp [FP.lt])

/-- A distribution function with the properties required: that of the Cauchy distribution (for all
degrees of freedom). -/
noncomputable def cauchyT : StudentT where
  cdf _ t := 1 / 2 + Real.arctan t / Real.pi
  strictMono _ _ := fun a b hab => by
    have := Real.arctan_strictMono hab
    have := div_lt_div_of_pos_right this Real.pi_pos
    linarith
  pos _ _ t := by
    have h := Real.neg_pi_div_two_lt_arctan t
    have hpi := Real.pi_pos
    have : -(1 / 2) < Real.arctan t / Real.pi := by
      rw [lt_div_iff₀ hpi]
      linarith
    linarith
  lt_one _ _ t := by
    have h := Real.arctan_lt_pi_div_two t
    have hpi := Real.pi_pos
    have : Real.arctan t / Real.pi < 1 / 2 := by
      rw [div_lt_iff₀ hpi]
      linarith
    linarith

private def exSup := supported_vec (n := 5) (by norm_num) ![0, 1, 3, 2, 2] ![1, 0, 4, 4, 7] .auto .auto
  (Or.inl rfl)

private def exSup' := supported_vec (n := 5) (by norm_num) ![0, 1, 3, 2, 2] ![0, 1, 3, 2, 2] .auto
  .auto (Or.inl rfl)

example := C43_t_statistic_value exSup (by norm_num) (by simp [npVec]) (by simp [npVec])
example := C43_t_statistic_increasing exSup exSup' (by norm_num) (by simp [npVec]) (by simp [npVec])
  (by simp [npVec]) (by simp [npVec])
example := C43_pvalue_range cauchyT exSup (by norm_num) (by simp [npVec]) (by simp [npVec])

/-- Crossed samples: their corrected correlation is -1/2, so the statistic is finite. -/
example : ∃ t, ∃ a, (distanceCorrelationTTest stdEnv cauchyT (npVec ![0, 0, 1, 1])
      (npVec ![0, 1, 0, 1])).out = .ok (a, .fin t) ∧ t < 0 ∧
    a = .fin (1 - cauchyT.cdf (((4 : ℕ) * ((4 : ℕ) - 3) : ℝ) / 2 - 1) t) := by
  have h := supported_vec (n := 4) (by norm_num) ![0, 0, 1, 1] ![0, 1, 0, 1] .auto .auto (Or.inl rfl)
  obtain ⟨r, -, h1, h2⟩ := tstat_ok h (by norm_num) (by simp [npVec]) (by simp [npVec])
  have h3 := uDistanceCorrelationSqr_ok h (by norm_num) one_ne_zero
  rw [h1] at h3
  have hd : ∀ v : Fin 4 → ℝ, ∀ i j, Spec.distMat 1 (fun i (_ : Fin 1) => v i) i j = |v i - v j| := by
    intro v i j
    simp [Spec.distMat, Spec.dist, Real.sqrt_sq_eq_abs]
  have hs : ∀ v : Fin 4 → ℝ, Symm (Spec.distMat 1 (fun i (_ : Fin 1) => v i)) := by
    intro v i j
    rw [hd, hd, abs_sub_comm]
  have h0 : ∀ (v : Fin 4 → ℝ) i, Spec.distMat 1 (fun i (_ : Fin 1) => v i) i i = 0 := by
    intro v i
    rw [hd, sub_self, abs_zero]
  have hr : r = -(1 / 2) := by
    cases h3
    unfold Spec.uDcorSqr
    rw [Spec.uDcovSqr_four _ _ (hs _) (hs _) (h0 _) (h0 _),
      Spec.uDcovSqr_four _ _ (hs _) (hs _) (h0 _) (h0 _),
      Spec.uDcovSqr_four _ _ (hs _) (hs _) (h0 _) (h0 _)]
    simp only [hd, Matrix.cons_val]
    norm_num [Spec.ratio]
    rw [show (4 : ℝ) = 2 ^ 2 by norm_num, show (9 : ℝ) = 3 ^ 2 by norm_num,
      Real.sqrt_sq (by norm_num), Real.sqrt_sq (by norm_num)]
    norm_num
  rw [hr, tStatistic_inner (by norm_num) (by norm_num [abs_lt])] at h2
  have h4 := ttest_ok cauchyT h2
  refine ⟨_, _, h4, ?_, C43_pvalue_tail cauchyT h (by norm_num) h4⟩
  have : 0 < tScale 4 := tScale_pos (by norm_num)
  exact mul_neg_of_pos_of_neg this (div_neg_of_neg_of_pos (by norm_num) (by norm_num))

/-! ### C34: warnings of the tests -/

/-- C34: the two tests check the exponent once per array: they issue two, respectively three warnings
if the exponent is outside `(0, 2)` and none otherwise. -/
theorem C34_test_warns :
    (DcovTestCall x y α X Y → ∀ B : ℕ, nJobs ≠ some 0 →
      (distanceCovarianceTest env rng x y B α rs nJobs).warns
        = if 0 < α ∧ α < 2 then [] else List.replicate 2 .dcovExponent) ∧
    (PartialTestCall x y z α X Y Z → ∀ B : ℕ, nJobs ≠ some 0 →
      (partialDistanceCovarianceTest env rng x y z B α rs nJobs).warns
        = if 0 < α ∧ α < 2 then [] else List.replicate 3 .dcovExponent) := by
  constructor
  · intro h B hj
    rw [distanceCovarianceTest_ok h hj B]
    unfold dcovWarns
    split_ifs <;> rfl
  · intro h B hj
    rw [partialDistanceCovarianceTest_ok h hj B]
    unfold dcovWarns
    split_ifs <;> rfl

/-- C34: `energy_test` issues one warning if the exponent is outside `(0, 2)` and none otherwise. -/
theorem C34_energy_test_warns {k : ℕ} {A : Fin k → Arr} {o : EnergyOpts} {sz : Fin k → ℕ}
    {W : (a : Fin k) → Fin (sz a) → Fin p → ℝ} (hc : EnergyTestCall A o W) {s : EstStat}
    (hs : o.stat.resolve env = .ok s) (hj : nJobs ≠ some 0) (B : ℕ) :
    (energyTest env rng (List.ofFn A) B o rs nJobs).warns
      = if 0 < o.exponent ∧ o.exponent < 2 then [] else [.energyExponent] := by
  rw [energyTest_ok hc hs hj B]
  rfl

example := (C34_test_warns (env := stdEnv) (rng := shiftRng) (rs := .gen 0) (nJobs := some 2)
  (z := npMat exX) (Z := exX)).1 (dcovTestCall_mat (by norm_num) exX exY (α := 3) (by norm_num)) 5
  (by simp)
example := C34_energy_test_warns (env := stdEnv) (rng := shiftRng) (rs := .gen 0) (nJobs := some 2)
  (energyTestCall_two exX exX (by norm_num) (by norm_num) (α := 3) (by norm_num) (.enum .u)) rfl
  (by simp) 5

/-! ### C44 -/

/-- C44: `distance_covariance_test` raises `ValueError` for samples of different lengths (and
`AssertionError` for arrays with more than two dimensions), for all dtypes, exponents and
libraries. -/
theorem C44_dcov_test_length_mismatch (h : x.shape0 ≠ y.shape0) (B : ℤ) :
    (distanceCovarianceTest env rng x y B α rs nJobs).out = .error .valueError ∨
      (distanceCovarianceTest env rng x y B α rs nJobs).out = .error .assertionError := by
  have h2d : ∀ x : Arr, (∃ m : Mat2, transformTo2d x.data = .ok m ∧ m.n = x.shape0) ∨
      transformTo2d x.data = .error .assertionError := by
    intro x
    unfold transformTo2d Arr.shape0
    cases x.data
    · exact Or.inl ⟨_, rfl, rfl⟩
    · exact Or.inl ⟨_, rfl, rfl⟩
    · exact Or.inr rfl
  have key : (dcovTestSetup env x y α).out = .error .valueError ∨
      (dcovTestSetup env x y α).out = .error .assertionError := by
    unfold dcovTestSetup
    rcases h2d x with ⟨x2, hx, hxn⟩ | hx
    · rcases h2d y with ⟨y2, hy, hyn⟩ | hy
      · left
        rw [hx, hy, PyM.lift_ok_bind, PyM.lift_ok_bind, dif_neg (by rw [hxn, hyn]; exact h)]
        rfl
      · right
        rw [hx, hy, PyM.lift_ok_bind]
        rfl
    · right
      rw [hx]
      rfl
  unfold distanceCovarianceTest PyM.permutationTest
  rcases key with h | h
  · left
    rw [PyM.bind_err h]
  · right
    rw [PyM.bind_err h]

example := C44_dcov_test_length_mismatch (env := stdEnv) (rng := shiftRng) (rs := .gen 0)
  (nJobs := some 2) (α := 1) (x := npMat exX) (y := npVec ![(0 : ℝ)]) (by decide) 5

end Dcor.Props

/-
Property C104: the partial distance covariance and correlation of a growing sample converge to those of the distribution,
and the permutation test finds every positive partial distance covariance.

As in C99 the random outcome `ω` is fixed before the arrays of the calls are chosen. The observations are `W i ω`, and the
samples are the functions `f`, `g` and `h` of them.
-/
import Verif.Proofs.ConsistencyPartial
import Verif.Props.Characterization
import Verif.Props.PermVariance

namespace Dcor.Props

open Finset MeasureTheory ProbabilityTheory Filter Topology

variable {env : Env} {nJobs : Option ℤ} {p q r B : ℕ} {α : ℝ} {Ω S : Type*} {mΩ : MeasurableSpace Ω} [MeasurableSpace S]
  {P : Measure Ω} {μ : Measure S} [IsProbabilityMeasure μ] {W : ℕ → Ω → S} {f : S → Fin p → ℝ} {g : S → Fin q → ℝ}
  {h : S → Fin r → ℝ}

/-- For exponents less than two the distance variance of a vector is zero only if it has one value. -/
theorem variance_or_constant (hα : 0 < α) (mh : Measurable h) (hh : Integrable (fun w => Spec.dist α (h w) 0 ^ 2) μ)
    (hv : α < 2 ∨ Spec.covPop α μ h h ≠ 0) : Spec.covPop α μ h h ≠ 0 ∨ ∃ c, ∀ᵐ w ∂μ, h w = c := by
  rcases hv with hα2 | hv
  · by_cases h0 : Spec.covPop α μ h h = 0
    · right
      have m : Measurable fun w => (h w, h w) := mh.prodMk mh
      have _ : IsProbabilityMeasure (μ.map fun w => (h w, h w)) := Measure.isProbabilityMeasure_map m.aemeasurable
      have hi := (C100_dcov_zero hα hα2 (Consistency.moments_map hα.le mh mh hh hh)).1 h0
      refine constant_of_indep mh ?_
      rw [indepFun_iff_map_prod_eq_prod_map_map measurable_fst.aemeasurable measurable_snd.aemeasurable,
        Measure.map_map measurable_fst m, Measure.map_map measurable_snd m, Measure.map_map (by fun_prop) m] at hi
      rw [indepFun_iff_map_prod_eq_prod_map_map mh.aemeasurable mh.aemeasurable]
      exact hi
    · exact .inl h0
  · exact .inl hv

/-- C104: with probability one `partial_distance_covariance` of the first `n` observations tends to the partial distance
covariance of the distribution. -/
theorem C104_partial_covariance (hW : Spec.Sample P W μ) (mf : Measurable f) (mg : Measurable g) (mh : Measurable h)
    (hf : Integrable (fun w => Spec.dist 1 (f w) 0 ^ 2) μ) (hg : Integrable (fun w => Spec.dist 1 (g w) 0 ^ 2) μ)
    (hh : Integrable (fun w => Spec.dist 1 (h w) 0 ^ 2) μ) :
    ∀ᵐ ω ∂P, ∀ x y z : ℕ → Arr,
      (∀ᶠ n in atTop, Samples3 (x n) (y n) (z n) (fun i : Fin n => f (W i ω)) (fun i : Fin n => g (W i ω))
        (fun i : Fin n => h (W i ω))) →
      ReturnsTo atTop (fun n => (partialDistanceCovariance env (x n) (y n) (z n)).out) (Spec.partialPop 1 μ f g h) := by
  have hv := variance_or_constant one_pos mh hh (.inl one_lt_two)
  filter_upwards [Consistency.partial_law one_pos hW mf mg mh hf hg hh hv] with ω h1
  intro x y z hs
  refine ⟨_, ?_, h1⟩
  filter_upwards [hs] with n hs
  rw [partialDistanceCovariance_ok env hs.hn hs.hx hs.hy hs.hz]
  rfl

/-- C104: with probability one `partial_distance_correlation` of the first `n` observations tends to the partial distance
correlation of the distribution, if the variances are positive. -/
theorem C104_partial_correlation (hW : Spec.Sample P W μ) (mf : Measurable f) (mg : Measurable g) (mh : Measurable h)
    (hf : Integrable (fun w => Spec.dist 1 (f w) 0 ^ 2) μ) (hg : Integrable (fun w => Spec.dist 1 (g w) 0 ^ 2) μ)
    (hh : Integrable (fun w => Spec.dist 1 (h w) 0 ^ 2) μ)
    (hx : 0 < Spec.partialPop 1 μ f f h) (hy : 0 < Spec.partialPop 1 μ g g h) :
    ∀ᵐ ω ∂P, ∀ x y z : ℕ → Arr,
      (∀ᶠ n in atTop, Samples3 (x n) (y n) (z n) (fun i : Fin n => f (W i ω)) (fun i : Fin n => g (W i ω))
        (fun i : Fin n => h (W i ω))) →
      ReturnsTo atTop (fun n => (partialDistanceCorrelation env (x n) (y n) (z n)).out)
        (Spec.partialPop 1 μ f g h / Real.sqrt (Spec.partialPop 1 μ f f h * Spec.partialPop 1 μ g g h)) := by
  have hv := variance_or_constant one_pos mh hh (.inl one_lt_two)
  filter_upwards [Consistency.partial_law one_pos hW mf mg mh hf hg hh hv,
    Consistency.partial_law one_pos hW mf mf mh hf hf hh hv,
    Consistency.partial_law one_pos hW mg mg mh hg hg hh hv] with ω h1 h2 h3
  intro x y z hs
  refine ⟨_, ?_, Consistency.ratio_tendsto_ratio hx hy h1 h2 h3⟩
  filter_upwards [hs] with n hs
  rw [partialDistanceCorrelation_ok env hs.hn hs.hx hs.hy hs.hz]
  rfl

/-- What the two theorems about `partial_distance_covariance_test` need. -/
private theorem test_limits (hα : 0 < α) (hj : nJobs ≠ some 0) (hW : Spec.Sample P W μ) (mf : Measurable f)
    (mg : Measurable g) (mh : Measurable h)
    (hf : Integrable (fun w => Spec.dist α (f w) 0 ^ 2) μ) (hg : Integrable (fun w => Spec.dist α (g w) 0 ^ 2) μ)
    (hh : Integrable (fun w => Spec.dist α (h w) 0 ^ 2) μ) (hv : α < 2 ∨ Spec.covPop α μ h h ≠ 0)
    (hne : Spec.partialPop α μ f g h ≠ 0) :
    ∀ᵐ ω ∂P, ∃ t c : ℕ → ℝ, Tendsto t atTop (𝓝 (Spec.partialPop α μ f g h)) ∧ Tendsto c atTop (𝓝 0) ∧
      ∀ x y z : ℕ → Arr,
      (∀ᶠ n in atTop, PartialTestCall (x n) (y n) (z n) α (fun i : Fin n => f (W i ω)) (fun i : Fin n => g (W i ω))
        (fun i : Fin n => h (W i ω))) →
      ∀ᶠ n in atTop, ∃ pv : (Fin B → Equiv.Perm (Fin n)) → ℝ,
        (∀ σ, ∃ s, (partialDistanceCovarianceTest env (Rng.replay σ) (x n) (y n) (z n) B α (.gen 0) nJobs).out
          = .ok (⟨pv σ, .fin (n * t n)⟩, s)) ∧
        (0 < n * t n → (∑ σ, pv σ) / n.factorial ^ B ≤ (1 + B * c n) / (B + 1)) ∧
        (0 < n * t n → ((univ.filter fun σ => pv σ ≠ 1 / ((B : ℝ) + 1)).card : ℝ) / n.factorial ^ B ≤ B * c n) ∧
        (n * t n < 0 → ((univ.filter fun σ => pv σ ≠ 1).card : ℝ) / n.factorial ^ B ≤ B * c n) := by
  have hv := variance_or_constant hα mh hh hv
  filter_upwards [Consistency.partial_law hα hW mf mg mh hf hg hh hv,
    Consistency.partial_law hα hW mf mf mh hf hf hh hv, Consistency.partial_law hα hW mg mg mh hg hg hh hv] with ω h1 h2 h3
  obtain ⟨t, ht⟩ : ∃ t : ℕ → ℝ, t = fun n : ℕ => Spec.uInner
      (Spec.residualMat α (fun i : Fin n => h (W i ω)) (fun i : Fin n => f (W i ω)))
      (Spec.residualMat α (fun i : Fin n => h (W i ω)) (fun i : Fin n => g (W i ω))) := ⟨_, rfl⟩
  obtain ⟨tx, htx⟩ : ∃ t : ℕ → ℝ, t = fun n : ℕ => Spec.uInner
      (Spec.residualMat α (fun i : Fin n => h (W i ω)) (fun i : Fin n => f (W i ω)))
      (Spec.residualMat α (fun i : Fin n => h (W i ω)) (fun i : Fin n => f (W i ω))) := ⟨_, rfl⟩
  obtain ⟨ty, hty⟩ : ∃ t : ℕ → ℝ, t = fun n : ℕ => Spec.uInner
      (Spec.residualMat α (fun i : Fin n => h (W i ω)) (fun i : Fin n => g (W i ω)))
      (Spec.residualMat α (fun i : Fin n => h (W i ω)) (fun i : Fin n => g (W i ω))) := ⟨_, rfl⟩
  rw [← ht] at h1
  rw [← htx] at h2
  rw [← hty] at h3
  have hcs : ∀ᶠ n : ℕ in atTop, t n ^ 2 ≤ tx n * ty n := by
    filter_upwards [eventually_gt_atTop 3] with n hn
    rw [ht, htx, hty]
    beta_reduce
    rw [Spec.uInner_eq_uIp fun i => by rw [residualMat_diag, zero_mul],
      Spec.uInner_eq_uIp fun i => by rw [residualMat_diag, zero_mul],
      Spec.uInner_eq_uIp fun i => by rw [residualMat_diag, zero_mul]]
    exact uIp_cauchy hn _ _
  have hprod : 0 < Spec.partialPop α μ f f h * Spec.partialPop α μ g g h :=
    lt_of_lt_of_le (by positivity) (le_of_tendsto_of_tendsto (h1.pow 2) (h2.mul h3) hcs)
  have hq : Tendsto (fun n => t n ^ 2 / (tx n * ty n)) atTop
      (𝓝 (Spec.partialPop α μ f g h ^ 2 / (Spec.partialPop α μ f f h * Spec.partialPop α μ g g h))) :=
    (h1.pow 2).div (h2.mul h3) hprod.ne'
  have hnn : Tendsto (fun n : ℕ => (n : ℝ) * ((n : ℝ) - 3) / 2) atTop atTop := by
    refine Tendsto.atTop_div_const two_pos ?_
    exact tendsto_natCast_atTop_atTop.atTop_mul_atTop₀
      (tendsto_atTop_add_const_right _ (-3) tendsto_natCast_atTop_atTop)
  refine ⟨t, fun n : ℕ => 1 / (1 + (n : ℝ) * ((n : ℝ) - 3) / 2 * (t n ^ 2 / (tx n * ty n))), h1, ?_, fun x y z hc => ?_⟩
  · refine tendsto_const_nhds.div_atTop (tendsto_atTop_add_const_left _ 1 ?_)
    exact hnn.atTop_mul_pos (by positivity) hq
  · filter_upwards [hc] with n hc
    have hn0 : (n : ℝ) ≠ 0 := by
      have := hc.hn
      positivity
    obtain ⟨T, Tx, Ty, pv, a1, a2, a3, a4, a5, a6⟩ :=
      C103_partial_power (env := env) (nJobs := nJobs) (B := B) hc hj hα.ne'
    have e1 : T = n * t n := by
      obtain ⟨s, hs⟩ := a1 fun _ => 1
      rw [partialDistanceCovarianceTest_ok hc hj B] at hs
      have := congrArg (fun r : HypothesisTest × ℕ => r.1.statistic) (Except.ok.inj hs)
      rw [ht]
      exact (FP.fin.inj this).symm
    have e2 : Tx = n * tx n := by
      obtain ⟨_, s, hs⟩ := a2 ℕ shiftRng (.gen 0)
      rw [partialDistanceCovarianceTest_ok ⟨hc.hn, hc.hx, hc.hx, hc.hz, hc.exponent_nonneg, hc.dx, hc.dx, hc.dz⟩ hj B] at hs
      have := congrArg (fun r : HypothesisTest × ℕ => r.1.statistic) (Except.ok.inj hs)
      rw [htx]
      exact (FP.fin.inj this).symm
    have e3 : Ty = n * ty n := by
      obtain ⟨_, s, hs⟩ := a3 ℕ shiftRng (.gen 0)
      rw [partialDistanceCovarianceTest_ok ⟨hc.hn, hc.hy, hc.hy, hc.hz, hc.exponent_nonneg, hc.dy, hc.dy, hc.dz⟩ hj B] at hs
      have := congrArg (fun r : HypothesisTest × ℕ => r.1.statistic) (Except.ok.inj hs)
      rw [hty]
      exact (FP.fin.inj this).symm
    have e4 : T ^ 2 / (Tx * Ty) = t n ^ 2 / (tx n * ty n) := by
      rw [e1, e2, e3, show (n : ℝ) * tx n * (n * ty n) = n ^ 2 * (tx n * ty n) by ring, mul_pow,
        mul_div_mul_left _ _ (pow_ne_zero 2 hn0)]
    rw [e4] at a4 a5 a6
    subst e1
    exact ⟨pv, a1, a4, a5, a6⟩

/-- C104: with probability one `partial_distance_covariance_test` of the first `n` observations rejects for large `n`, if the
partial distance covariance of the distribution is positive. -/
theorem C104_partial_test (hα : 0 < α) (hj : nJobs ≠ some 0) (hW : Spec.Sample P W μ) (mf : Measurable f)
    (mg : Measurable g) (mh : Measurable h)
    (hf : Integrable (fun w => Spec.dist α (f w) 0 ^ 2) μ) (hg : Integrable (fun w => Spec.dist α (g w) 0 ^ 2) μ)
    (hh : Integrable (fun w => Spec.dist α (h w) 0 ^ 2) μ) (hv : α < 2 ∨ Spec.covPop α μ h h ≠ 0)
    (hpos : 0 < Spec.partialPop α μ f g h) :
    ∀ᵐ ω ∂P, ∀ x y z : ℕ → Arr,
      (∀ᶠ n in atTop, PartialTestCall (x n) (y n) (z n) α (fun i : Fin n => f (W i ω)) (fun i : Fin n => g (W i ω))
        (fun i : Fin n => h (W i ω))) →
      Rejects (B := B) (fun n => n)
        (fun n σ => (partialDistanceCovarianceTest env (Rng.replay σ) (x n) (y n) (z n) B α (.gen 0) nJobs).out) := by
  filter_upwards [test_limits (env := env) (B := B) hα hj hW mf mg mh hf hg hh hv hpos.ne'] with ω ⟨t, c, h1, h2, h3⟩
  intro x y z hc
  have hT : Tendsto (fun n : ℕ => (n : ℝ) * t n) atTop atTop := tendsto_natCast_atTop_atTop.atTop_mul_pos hpos h1
  refine Rejects.intro (T := fun n : ℕ => (n : ℝ) * t n) (D := fun n : ℕ => c n * ((n : ℝ) * t n)) hT ?_ ?_
  · refine h2.congr' ?_
    filter_upwards [hT.eventually_gt_atTop 0] with n hn
    rw [mul_div_cancel_right₀ _ hn.ne']
  · filter_upwards [h3 x y z hc] with n ⟨pv, a1, a4, a5, a6⟩
    refine ⟨pv, a1, fun σ => ?_, fun h0 => ?_, fun h0 => ?_⟩
    · obtain ⟨s, hs⟩ := a1 σ
      exact (C36_pvalue_range (env := env) (.partialDcov (x n) (y n) (z n) α) hs).2.1
    · rw [mul_div_cancel_right₀ _ h0.ne']
      exact a4 h0
    · rw [mul_div_cancel_right₀ _ h0.ne']
      exact a5 h0

/-- C104: with probability one the p-value of `partial_distance_covariance_test` of the first `n` observations is 1 with a
probability that tends to one, if the partial distance covariance of the distribution is negative. -/
theorem C104_partial_test_negative (hα : 0 < α) (hj : nJobs ≠ some 0) (hW : Spec.Sample P W μ) (mf : Measurable f)
    (mg : Measurable g) (mh : Measurable h)
    (hf : Integrable (fun w => Spec.dist α (f w) 0 ^ 2) μ) (hg : Integrable (fun w => Spec.dist α (g w) 0 ^ 2) μ)
    (hh : Integrable (fun w => Spec.dist α (h w) 0 ^ 2) μ) (hv : α < 2 ∨ Spec.covPop α μ h h ≠ 0)
    (hneg : Spec.partialPop α μ f g h < 0) :
    ∀ᵐ ω ∂P, ∀ x y z : ℕ → Arr,
      (∀ᶠ n in atTop, PartialTestCall (x n) (y n) (z n) α (fun i : Fin n => f (W i ω)) (fun i : Fin n => g (W i ω))
        (fun i : Fin n => h (W i ω))) →
      ∃ (T : ℕ → ℝ) (pv : (n : ℕ) → (Fin B → Equiv.Perm (Fin n)) → ℝ),
        (∀ᶠ n in atTop, ∀ σ, ∃ s, (partialDistanceCovarianceTest env (Rng.replay σ) (x n) (y n) (z n) B α (.gen 0)
          nJobs).out = .ok (⟨pv n σ, .fin (T n)⟩, s)) ∧
        Tendsto T atTop atBot ∧
        Tendsto (fun n => ((univ.filter fun σ => pv n σ = 1).card : ℝ) / n.factorial ^ B) atTop (𝓝 1) := by
  filter_upwards [test_limits (env := env) (B := B) hα hj hW mf mg mh hf hg hh hv hneg.ne] with ω ⟨t, c, h1, h2, h3⟩
  intro x y z hc
  have hT : Tendsto (fun n : ℕ => (n : ℝ) * t n) atTop atBot := tendsto_natCast_atTop_atTop.atTop_mul_neg hneg h1
  have h4 := h3 x y z hc
  obtain ⟨N, hN⟩ := eventually_atTop.1 h4
  choose! pv hpv using hN
  have hpv' : ∀ᶠ n in atTop, _ := (eventually_ge_atTop N).mono hpv
  have hf0 (n : ℕ) : (0 : ℝ) < (n.factorial : ℝ) ^ B := by positivity
  refine ⟨fun n => n * t n, pv, hpv'.mono fun n hn => hn.1, hT, ?_⟩
  have hl : Tendsto (fun n => 1 - B * c n) atTop (𝓝 1) := by
    have := (h2.const_mul (B : ℝ)).const_sub 1
    rwa [mul_zero, sub_zero] at this
  refine tendsto_of_tendsto_of_tendsto_of_le_of_le' hl tendsto_const_nhds ?_ ?_
  · filter_upwards [hpv', hT.eventually_lt_atBot 0] with n hn h0
    have h5 := hn.2.2.2 h0
    have h6 := Finset.card_filter_add_card_filter_not (s := (univ : Finset (Fin B → Equiv.Perm (Fin n))))
      (fun σ => pv n σ = 1)
    have h7 : ((univ.filter fun σ => pv n σ = 1).card : ℝ)
        + ((univ.filter fun σ => pv n σ ≠ 1).card : ℝ) = n.factorial ^ B := by
      rw [← card_perms, ← Finset.card_univ]
      exact_mod_cast h6
    rw [div_le_iff₀ (hf0 n)] at h5
    rw [le_div_iff₀ (hf0 n)]
    linarith
  · filter_upwards with n
    rw [div_le_one (hf0 n), ← card_perms]
    exact_mod_cast Finset.card_le_univ _

end Dcor.Props

/-
Property C99: the statistics of a growing sample converge to those of the distribution, and the permutation tests find
every dependence and every difference that these see.

"With probability one" is `∀ᵐ ω ∂P`: all samples, the random outcome `ω` of which is fixed first, before the arrays and the
options of the calls are chosen.
-/
import Mathlib.Probability.Independence.InfinitePi
import Verif.Proofs.ConsistencyTests
import Verif.Proofs.EnergySpec
import Verif.Props.Energy
import Verif.Props.Power

namespace Dcor.Props

open Finset MeasureTheory ProbabilityTheory Filter Topology

/-- The calls `f n` return numbers for all large `n`, and these tend to `L`. -/
def ReturnsTo {ι : Type*} (l : Filter ι) (f : ι → Except PyErr (FP ℝ)) (L : ℝ) : Prop :=
  ∃ v : ι → ℝ, (∀ᶠ n in l, f n = .ok (.fin (v n))) ∧ Tendsto v l (𝓝 L)

variable {env : Env} {nJobs : Option ℤ} {p q B k : ℕ} {α : ℝ} {Ω : Type*} {mΩ : MeasurableSpace Ω} {P : Measure Ω}

/-! ### Covariances and correlations -/

section Dcov

variable {Z : ℕ → Ω → (Fin p → ℝ) × (Fin q → ℝ)} {μ : Measure ((Fin p → ℝ) × (Fin q → ℝ))} [IsProbabilityMeasure μ]

/-- C99: with probability one `distance_covariance_sqr`, `u_distance_covariance_sqr` and `distance_covariance` of the first
`n` observations of a sample, with any method, tend to the distance covariance of the distribution. -/
theorem C99_covariance (hα : 0 < α) (hZ : Spec.Sample P Z μ) (hm : Spec.Moments α μ) :
    ∀ᵐ ω ∂P, ∀ (x y : ℕ → Arr) (o : ℕ → Opts), (∀ n, (o n).exponent = α) →
      (∀ᶠ n in atTop, Supported env (x n) (y n) (o n) (fun i : Fin n => (Z i ω).1) (fun i : Fin n => (Z i ω).2)) →
      ReturnsTo atTop (fun n => (distanceCovarianceSqr env (x n) (y n) (o n)).out) (Spec.dcovPop α μ) ∧
      ReturnsTo atTop (fun n => (uDistanceCovarianceSqr env (x n) (y n) (o n)).out) (Spec.dcovPop α μ) ∧
      ReturnsTo atTop (fun n => (distanceCovariance env (x n) (y n) (o n)).out) (Real.sqrt (Spec.dcovPop α μ)) := by
  filter_upwards [Consistency.dcovSqr_law hα.le hZ hm, Consistency.uDcovSqr_law hα hZ hm] with ω h1 h2
  intro x y o ho hs
  refine ⟨⟨_, ?_, h1⟩, ⟨_, ?_, h2⟩, ⟨_, ?_, (Real.continuous_sqrt.tendsto _).comp h1⟩⟩
  · filter_upwards [hs, eventually_gt_atTop 0] with n hs hn
    rw [distanceCovarianceSqr_ok hs hn, ho]
  · filter_upwards [hs, eventually_gt_atTop 3] with n hs hn
    rw [uDistanceCovarianceSqr_ok hs hn (by rw [ho]; exact hα.ne'), ho]
  · filter_upwards [hs, eventually_gt_atTop 0] with n hs hn
    rw [distanceCovariance_ok hs hn, ho]
    rfl

/-- The distribution of the first part of the vector and a copy of it. -/
noncomputable def twiceFst (μ : Measure ((Fin p → ℝ) × (Fin q → ℝ))) : Measure ((Fin p → ℝ) × (Fin p → ℝ)) :=
  μ.map fun z => (z.1, z.1)

/-- The distribution of the second part of the vector and a copy of it. -/
noncomputable def twiceSnd (μ : Measure ((Fin p → ℝ) × (Fin q → ℝ))) : Measure ((Fin q → ℝ) × (Fin q → ℝ)) :=
  μ.map fun z => (z.2, z.2)

/-- C99: with probability one `distance_correlation_sqr`, `u_distance_correlation_sqr` and `distance_correlation` of the
first `n` observations of a sample tend to the distance correlation of the distribution, if its variances are positive. -/
theorem C99_correlation (hα : 0 < α) (hZ : Spec.Sample P Z μ) (hx : Integrable (fun z => Spec.dist α z.1 0 ^ 2) μ)
    (hy : Integrable (fun z => Spec.dist α z.2 0 ^ 2) μ) (hvx : 0 < Spec.dcovPop α (twiceFst μ))
    (hvy : 0 < Spec.dcovPop α (twiceSnd μ)) :
    ∀ᵐ ω ∂P, ∀ (x y : ℕ → Arr) (o : ℕ → Opts), (∀ n, (o n).exponent = α) →
      (∀ᶠ n in atTop, Supported env (x n) (y n) (o n) (fun i : Fin n => (Z i ω).1) (fun i : Fin n => (Z i ω).2)) →
      ReturnsTo atTop (fun n => (distanceCorrelationSqr env (x n) (y n) (o n)).out)
        (Spec.dcovPop α μ / Real.sqrt (Spec.dcovPop α (twiceFst μ) * Spec.dcovPop α (twiceSnd μ))) ∧
      ReturnsTo atTop (fun n => (uDistanceCorrelationSqr env (x n) (y n) (o n)).out)
        (Spec.dcovPop α μ / Real.sqrt (Spec.dcovPop α (twiceFst μ) * Spec.dcovPop α (twiceSnd μ))) ∧
      ReturnsTo atTop (fun n => (distanceCorrelation env (x n) (y n) (o n)).out)
        (Real.sqrt (Spec.dcovPop α μ
          / Real.sqrt (Spec.dcovPop α (twiceFst μ) * Spec.dcovPop α (twiceSnd μ)))) := by
  have hm := Consistency.moments_of_sq hα.le hx hy
  have hmx : Spec.Moments α (twiceFst μ) := Consistency.moments_map hα.le measurable_fst measurable_fst hx hx
  have hmy : Spec.Moments α (twiceSnd μ) := Consistency.moments_map hα.le measurable_snd measurable_snd hy hy
  have mx : Measurable fun z : (Fin p → ℝ) × (Fin q → ℝ) => (z.1, z.1) := by fun_prop
  have my : Measurable fun z : (Fin p → ℝ) × (Fin q → ℝ) => (z.2, z.2) := by fun_prop
  have hZx : Spec.Sample P (fun i ω => ((Z i ω).1, (Z i ω).1)) (twiceFst μ) := hZ.comp mx
  have hZy : Spec.Sample P (fun i ω => ((Z i ω).2, (Z i ω).2)) (twiceSnd μ) := hZ.comp my
  have _ : IsProbabilityMeasure (twiceFst μ) := Measure.isProbabilityMeasure_map mx.aemeasurable
  have _ : IsProbabilityMeasure (twiceSnd μ) := Measure.isProbabilityMeasure_map my.aemeasurable
  filter_upwards [Consistency.dcovSqr_law hα.le hZ hm, Consistency.uDcovSqr_law hα hZ hm,
    Consistency.dcovSqr_law hα.le hZx hmx, Consistency.uDcovSqr_law hα hZx hmx,
    Consistency.dcovSqr_law hα.le hZy hmy, Consistency.uDcovSqr_law hα hZy hmy] with ω h1 h2 h3 h4 h5 h6
  intro x y o ho hs
  have r1 := Consistency.ratio_tendsto_ratio hvx hvy h1 h3 h5
  have r2 := Consistency.ratio_tendsto_ratio hvx hvy h2 h4 h6
  refine ⟨⟨_, ?_, r1⟩, ⟨_, ?_, r2⟩, ⟨_, ?_, (Real.continuous_sqrt.tendsto _).comp r1⟩⟩
  · filter_upwards [hs, eventually_gt_atTop 0] with n hs hn
    rw [distanceCorrelationSqr_ok hs hn, ho]
    rfl
  · filter_upwards [hs, eventually_gt_atTop 3] with n hs hn
    rw [uDistanceCorrelationSqr_ok hs hn (by rw [ho]; exact hα.ne'), ho]
    rfl
  · filter_upwards [hs, eventually_gt_atTop 0] with n hs hn
    rw [distanceCorrelation_ok hs hn, ho]
    rfl

end Dcov

/-! ### Energy distance -/

section Energy

variable {X Y : ℕ → Ω → Fin p → ℝ} {μ ν : Measure (Fin p → ℝ)} [IsProbabilityMeasure μ] [IsProbabilityMeasure ν]

/-- C99: with probability one `energy_distance` of the first `n` and `m` observations of two samples, with both estimation
statistics, tends to the energy distance of the distributions, however `n` and `m` grow. The samples need not be independent
of each other. -/
theorem C99_energy_distance (hα : 0 < α) (hX : Spec.Sample P X μ) (hY : Spec.Sample P Y ν)
    (hμ : Integrable (fun x => Spec.dist α x 0) μ) (hν : Integrable (fun x => Spec.dist α x 0) ν) :
    ∀ᵐ ω ∂P, ∀ (x y : ℕ × ℕ → Arr) (o : ℕ × ℕ → EnergyOpts) (s : EstStat), (∀ n, (o n).exponent = α) →
      (∀ n, (o n).stat.resolve env = .ok s) →
      (∀ᶠ n in atTop ×ˢ atTop, EnergyCall (x n) (y n) (o n) (fun i : Fin n.1 => X i ω) (fun i : Fin n.2 => Y i ω)) →
      ReturnsTo (atTop ×ˢ atTop) (fun n => (energyDistance env (x n) (y n) (o n)).out.map Scalar.val)
        (Spec.energyPop α μ ν) := by
  filter_upwards [Consistency.energy_law hα hX hY hμ hν] with ω ⟨h1, h2⟩
  intro x y o s ho hst hs
  cases s with
  | v =>
    refine ⟨_, ?_, h1⟩
    filter_upwards [hs, (eventually_gt_atTop 0).prod_mk (eventually_gt_atTop 0)] with n hs hn
    rw [energyDistance_v hs (hst n) hn.1 hn.2, ho]
    rfl
  | u =>
    refine ⟨_, ?_, h2⟩
    filter_upwards [hs, (eventually_ge_atTop 2).prod_mk (eventually_ge_atTop 2)] with n hs hn
    rw [energyDistance_u hs (hst n) hn.1 hn.2, ho]
    rfl

end Energy

/-! ### Permutation tests -/

section Tests

/-- The test calls `f n σ`, where `σ` is the sequence of the `B` permutations of the `N n` observations, return for all large
`n`, with statistics that do not depend on `σ` and tend to infinity. The p-value is the smallest possible one,
`1 / (B + 1)`, with a probability that tends to one, and its average tends to `1 / (B + 1)`. -/
def Rejects (N : ℕ → ℕ) (f : (n : ℕ) → (Fin B → Equiv.Perm (Fin (N n))) → Except PyErr (HypothesisTest × ℕ)) : Prop :=
  ∃ (T : ℕ → ℝ) (pv : (n : ℕ) → (Fin B → Equiv.Perm (Fin (N n))) → ℝ),
    (∀ᶠ n in atTop, ∀ σ, ∃ s, f n σ = .ok (⟨pv n σ, .fin (T n)⟩, s)) ∧
    Tendsto T atTop atTop ∧
    Tendsto (fun n => ((univ.filter fun σ => pv n σ = 1 / ((B : ℝ) + 1)).card : ℝ) / (N n).factorial ^ B) atTop (𝓝 1) ∧
    Tendsto (fun n => (∑ σ, pv n σ) / (N n).factorial ^ B) atTop (𝓝 (1 / (B + 1)))

theorem card_perms (N : ℕ) : (Fintype.card (Fin B → Equiv.Perm (Fin N)) : ℝ) = N.factorial ^ B := by
  rw [Fintype.card_fun, Fintype.card_perm, Fintype.card_fin, Fintype.card_fin, Nat.cast_pow]

theorem Rejects.intro {N : ℕ → ℕ} {f : (n : ℕ) → (Fin B → Equiv.Perm (Fin (N n))) → Except PyErr (HypothesisTest × ℕ)}
    {T D : ℕ → ℝ} (hT : Tendsto T atTop atTop) (hD : Tendsto (fun n => D n / T n) atTop (𝓝 0))
    (h : ∀ᶠ n in atTop, ∃ pv : (Fin B → Equiv.Perm (Fin (N n))) → ℝ,
      (∀ σ, ∃ s, f n σ = .ok (⟨pv σ, .fin (T n)⟩, s)) ∧ (∀ σ, 1 / ((B : ℝ) + 1) ≤ pv σ) ∧
      (0 < T n → (∑ σ, pv σ) / (N n).factorial ^ B ≤ (1 + B * (D n / T n)) / (B + 1)) ∧
      (0 < T n → ((univ.filter fun σ => pv σ ≠ 1 / ((B : ℝ) + 1)).card : ℝ) / (N n).factorial ^ B
        ≤ B * (D n / T n))) : Rejects N f := by
  classical
  have h' : ∀ n, ∃ pv : (Fin B → Equiv.Perm (Fin (N n))) → ℝ, (∃ pv : (Fin B → Equiv.Perm (Fin (N n))) → ℝ,
      (∀ σ, ∃ s, f n σ = .ok (⟨pv σ, .fin (T n)⟩, s)) ∧ (∀ σ, 1 / ((B : ℝ) + 1) ≤ pv σ) ∧
      (0 < T n → (∑ σ, pv σ) / (N n).factorial ^ B ≤ (1 + B * (D n / T n)) / (B + 1)) ∧
      (0 < T n → ((univ.filter fun σ => pv σ ≠ 1 / ((B : ℝ) + 1)).card : ℝ) / (N n).factorial ^ B
        ≤ B * (D n / T n))) →
      (∀ σ, ∃ s, f n σ = .ok (⟨pv σ, .fin (T n)⟩, s)) ∧ (∀ σ, 1 / ((B : ℝ) + 1) ≤ pv σ) ∧
      (0 < T n → (∑ σ, pv σ) / (N n).factorial ^ B ≤ (1 + B * (D n / T n)) / (B + 1)) ∧
      (0 < T n → ((univ.filter fun σ => pv σ ≠ 1 / ((B : ℝ) + 1)).card : ℝ) / (N n).factorial ^ B
        ≤ B * (D n / T n)) := by
    intro n
    by_cases hn : ∃ pv : (Fin B → Equiv.Perm (Fin (N n))) → ℝ,
      (∀ σ, ∃ s, f n σ = .ok (⟨pv σ, .fin (T n)⟩, s)) ∧ (∀ σ, 1 / ((B : ℝ) + 1) ≤ pv σ) ∧
      (0 < T n → (∑ σ, pv σ) / (N n).factorial ^ B ≤ (1 + B * (D n / T n)) / (B + 1)) ∧
      (0 < T n → ((univ.filter fun σ => pv σ ≠ 1 / ((B : ℝ) + 1)).card : ℝ) / (N n).factorial ^ B
        ≤ B * (D n / T n))
    · exact ⟨hn.choose, fun _ => hn.choose_spec⟩
    · exact ⟨0, fun h => absurd h hn⟩
  choose pv hpv using h'
  have hev := h.mono hpv
  have hB : (0 : ℝ) < (B : ℝ) + 1 := by positivity
  have hlim : Tendsto (fun n => B * (D n / T n)) atTop (𝓝 0) := by
    have := hD.const_mul (B : ℝ)
    rwa [mul_zero] at this
  have hf : ∀ n, (0 : ℝ) < ((N n).factorial : ℝ) ^ B := fun n => by positivity
  refine ⟨T, pv, hev.mono fun n h => h.1, hT, ?_, ?_⟩
  · have hl : Tendsto (fun n => 1 - B * (D n / T n)) atTop (𝓝 1) := by
      have := hlim.const_sub 1
      rwa [sub_zero] at this
    refine tendsto_of_tendsto_of_tendsto_of_le_of_le' hl tendsto_const_nhds ?_ ?_
    · filter_upwards [hev, hT.eventually_gt_atTop 0] with n hn h0
      have h1 := hn.2.2.2 h0
      have h2 := Finset.card_filter_add_card_filter_not (s := (univ : Finset (Fin B → Equiv.Perm (Fin (N n)))))
        (fun σ => pv n σ = 1 / ((B : ℝ) + 1))
      have h3 : ((univ.filter fun σ => pv n σ = 1 / ((B : ℝ) + 1)).card : ℝ)
          + ((univ.filter fun σ => pv n σ ≠ 1 / ((B : ℝ) + 1)).card : ℝ) = (N n).factorial ^ B := by
        rw [← card_perms, ← Finset.card_univ]
        exact_mod_cast h2
      rw [div_le_iff₀ (hf n)] at h1
      rw [le_div_iff₀ (hf n)]
      linarith
    · filter_upwards with n
      rw [div_le_one (hf n), ← card_perms]
      exact_mod_cast Finset.card_le_univ _
  · have hl : Tendsto (fun n => (1 + B * (D n / T n)) / ((B : ℝ) + 1)) atTop (𝓝 (1 / (B + 1))) := by
      have := (hlim.const_add 1).div_const ((B : ℝ) + 1)
      rwa [add_zero] at this
    refine tendsto_of_tendsto_of_tendsto_of_le_of_le' tendsto_const_nhds hl ?_ ?_
    · filter_upwards [hev] with n hn
      rw [le_div_iff₀ (hf n), ← card_perms, mul_comm, ← nsmul_eq_mul, ← Finset.card_univ, ← Finset.sum_const]
      exact Finset.sum_le_sum fun σ _ => hn.2.1 σ
    · filter_upwards [hev, hT.eventually_gt_atTop 0] with n hn h0
      exact hn.2.2.1 h0

variable {Z : ℕ → Ω → (Fin p → ℝ) × (Fin q → ℝ)} {μ : Measure ((Fin p → ℝ) × (Fin q → ℝ))} [IsProbabilityMeasure μ]

/-- C99: with probability one `distance_covariance_test` of the first `n` observations rejects for large `n`, if the
distance covariance of the distribution is positive. -/
theorem C99_dcov_test (hα : 0 < α) (hα2 : α ≤ 2) (hj : nJobs ≠ some 0) (hZ : Spec.Sample P Z μ) (hm : Spec.Moments α μ)
    (hpos : 0 < Spec.dcovPop α μ) :
    ∀ᵐ ω ∂P, ∀ (x y : ℕ → Arr), (∀ᶠ n in atTop, DcovTestCall (x n) (y n) α (fun i : Fin n => (Z i ω).1)
        (fun i : Fin n => (Z i ω).2)) →
      Rejects (B := B) (fun n => n)
        (fun n σ => (distanceCovarianceTest env (Rng.replay σ) (x n) (y n) B α (.gen 0) nJobs).out) := by
  filter_upwards [Consistency.dcovSqr_law hα.le hZ hm, Consistency.terms_law hα.le hZ hm] with ω h1 ⟨_, h2, h3, _⟩
  intro x y hc
  have hT : Tendsto (fun n : ℕ => Spec.dcovStat α (fun i : Fin n => (Z i ω).1) (fun i : Fin n => (Z i ω).2))
      atTop atTop := tendsto_natCast_atTop_atTop.atTop_mul_pos hpos h1
  have hD := (((Consistency.ratio_tendsto 1).mul h2).mul h3).div_atTop hT
  refine Rejects.intro hT hD ?_
  filter_upwards [hc, eventually_ge_atTop 2] with n hc hn
  obtain ⟨T, pv, a1, a2, a3⟩ := C98_dcov_power (env := env) (nJobs := nJobs) (B := B) hc hj hn hα hα2
  have e : T = Spec.dcovStat α (fun i : Fin n => (Z i ω).1) (fun i : Fin n => (Z i ω).2) := by
    obtain ⟨s, hs⟩ := a1 fun _ => 1
    rw [distanceCovarianceTest_ok hc hj B] at hs
    have := congrArg (fun r : HypothesisTest × ℕ => r.1.statistic) (Except.ok.inj hs)
    exact (FP.fin.inj this).symm
  subst e
  simp only [Finset.sum_range, Nat.cast_one]
  refine ⟨pv, a1, fun σ => ?_, a2, a3⟩
  obtain ⟨s, hs⟩ := a1 σ
  exact (C36_pvalue_range (env := env) (.dcov (x n) (y n) α) hs).2.1

/-- C99: with probability one `energy_test` (V-statistics) of growing parts of `k` samples rejects, however the sizes grow,
if the energy distance of two of the distributions is positive. -/
theorem C99_energy_test (hα : 0 < α) (hα2 : α ≤ 2) (hj : nJobs ≠ some 0) {X : Fin k → ℕ → Ω → Fin p → ℝ}
    {ν : Fin k → Measure (Fin p → ℝ)} [∀ a, IsProbabilityMeasure (ν a)] (hX : ∀ a, Spec.Sample P (X a) (ν a))
    (hm : ∀ a, Integrable (fun x => Spec.dist α x 0) (ν a)) {a b : Fin k} (hpos : 0 < Spec.energyPop α (ν a) (ν b)) :
    ∀ᵐ ω ∂P, ∀ (sz : ℕ → Fin k → ℕ) (A : ℕ → Fin k → Arr) (o : ℕ → EnergyOpts),
      (∀ a, Tendsto (fun n => sz n a) atTop atTop) → (∀ n, (o n).exponent = α) →
      (∀ n, (o n).stat.resolve env = .ok .v) →
      (∀ᶠ n in atTop, EnergyTestCall (A n) (o n) fun a (i : Fin (sz n a)) => X a i ω) →
      Rejects (B := B) (fun n => ∑ a, sz n a)
        (fun n σ => (energyTest env (Rng.replay σ) (List.ofFn (A n)) B (o n) (.gen 0) nJobs).out) := by
  have hcross : ∀ᵐ ω ∂P, ∀ a b, Tendsto (fun n : ℕ × ℕ => Spec.crossMean α (fun i : Fin n.1 => X a i ω)
      (fun j : Fin n.2 => X b j ω)) (atTop ×ˢ atTop) (𝓝 (∫ x, ∫ y, Spec.dist α x y ∂(ν b) ∂(ν a))) :=
    ae_all_iff.2 fun a => ae_all_iff.2 fun b => Consistency.crossMean_law hα.le (hX a) (hX b) (hm a) (hm b)
  filter_upwards [hcross] with ω hcr
  intro sz A o hsz ho hs hc
  have hL : ∀ a b, Tendsto (fun n : ℕ × ℕ => Spec.crossMean α (Consistency.first (fun i => X a i ω) n.1)
      (Consistency.first (fun i => X b i ω) n.2)) (atTop ×ˢ atTop) (𝓝 (∫ x, ∫ y, Spec.dist α x y ∂(ν b) ∂(ν a))) := hcr
  have hT := Consistency.energyTest_tendsto hα.le hα2 hsz hL hpos
  have hD := Consistency.energyTest_mean_tendsto hα hα2 hsz hL hpos
  refine Rejects.intro hT hD ?_
  filter_upwards [hc] with n hc
  have hc' : EnergyTestCall (A n) (o n) fun a => Consistency.first (fun i => X a i ω) (sz n a) := hc
  obtain ⟨T, pv, a1, a2, a3⟩ := C98_energy_power (env := env) (nJobs := nJobs) (B := B) hc' (hs n) hj
    (by rw [ho]; exact hα) (by rw [ho]; exact hα2)
  have e : T = Spec.energyTestVal .v α fun a => Consistency.first (fun i => X a i ω) (sz n a) := by
    obtain ⟨s, hs'⟩ := a1 fun _ => 1
    rw [energyTest_ok hc' (hs n) hj B, Spec.energyTestStat_eq .v _ _ fun a => hc.pos a, ho] at hs'
    have := congrArg (fun r : HypothesisTest × ℕ => r.1.statistic) (Except.ok.inj hs')
    exact (FP.fin.inj this).symm
  subst e
  rw [ho] at a2 a3
  refine ⟨pv, a1, fun σ => ?_, a2, a3⟩
  obtain ⟨s, hs'⟩ := a1 σ
  exact (C36_pvalue_range (env := env) (.energy (List.ofFn (A n)) (o n)) hs').2.1

end Tests

/-! ### Distributions -/

/-- There are samples of every distribution. -/
theorem exists_sample {S : Type} [MeasurableSpace S] (μ : Measure S) [IsProbabilityMeasure μ] :
    Spec.Sample (Measure.infinitePi fun _ : ℕ => μ) (fun i ω => ω i) μ where
  measurable i := measurable_pi_apply i
  law i := Measure.infinitePi_map_eval (fun _ : ℕ => μ) i
  indep _ _ hij := (iIndepFun_infinitePi (P := fun _ : ℕ => μ) (X := fun _ ω => ω) fun _ => measurable_id).indepFun hij

/-- A sample of pairs with the given distributions of the parts. -/
theorem exists_samples {S S' : Type} [MeasurableSpace S] [MeasurableSpace S'] (μ : Measure S) (ν : Measure S')
    [IsProbabilityMeasure μ] [IsProbabilityMeasure ν] :
    Spec.Sample (Measure.infinitePi fun _ : ℕ => μ.prod ν) (fun i ω => (ω i).1) μ ∧
      Spec.Sample (Measure.infinitePi fun _ : ℕ => μ.prod ν) (fun i ω => (ω i).2) ν := by
  have hs := exists_sample (μ.prod ν)
  constructor
  · have := hs.comp measurable_fst
    rwa [Measure.map_fst_prod, measure_univ, one_smul] at this
  · have := hs.comp measurable_snd
    rwa [Measure.map_snd_prod, measure_univ, one_smul] at this

/-- C99: the distance covariance of a distribution is not negative. -/
theorem C99_dcov_nonneg (hα : 0 < α) (hα2 : α ≤ 2) {μ : Measure ((Fin p → ℝ) × (Fin q → ℝ))} [IsProbabilityMeasure μ]
    (hm : Spec.Moments α μ) : 0 ≤ Spec.dcovPop α μ := by
  obtain ⟨ω, h⟩ := (Consistency.dcovSqr_law hα.le (exists_sample μ) hm).exists
  exact ge_of_tendsto' h fun n => Spec.dcovSqr_nonneg _ _ hα hα2

/-- C99: the energy distance of two distributions is not negative. -/
theorem C99_energy_nonneg (hα : 0 < α) (hα2 : α ≤ 2) {μ ν : Measure (Fin p → ℝ)} [IsProbabilityMeasure μ]
    [IsProbabilityMeasure ν] (hμ : Integrable (fun x => Spec.dist α x 0) μ)
    (hν : Integrable (fun x => Spec.dist α x 0) ν) : 0 ≤ Spec.energyPop α μ ν := by
  obtain ⟨hX, hY⟩ := exists_samples μ ν
  obtain ⟨ω, h, -⟩ := (Consistency.energy_law hα hX hY hμ hν).exists
  refine ge_of_tendsto h ?_
  filter_upwards [(eventually_gt_atTop 0).prod_mk (eventually_gt_atTop 0)] with n hn
  exact Spec.energyV_nonneg hn.1 hn.2 _ _ hα.le hα2

/-- The distribution with two values of the same probability. -/
noncomputable def fair {S : Type} [MeasurableSpace S] (u v : S) : Measure S :=
  (2 : ENNReal)⁻¹ • (Measure.dirac u + Measure.dirac v)

section Fair

variable {S : Type} [MeasurableSpace S] (u v : S)

instance : IsProbabilityMeasure (fair u v) := by
  refine ⟨?_⟩
  simp only [fair, Measure.smul_apply, Measure.add_apply, measure_univ, smul_eq_mul]
  rw [one_add_one_eq_two]
  exact ENNReal.inv_mul_cancel (by norm_num) (by norm_num)

variable [MeasurableSingletonClass S]

theorem integrable_fair (f : S → ℝ) : Integrable f (fair u v) :=
  ((integrable_dirac (by simp)).add_measure (integrable_dirac (by simp))).smul_measure (by simp)

theorem integral_fair (f : S → ℝ) : ∫ x, f x ∂(fair u v) = (f u + f v) / 2 := by
  rw [fair, integral_smul_measure, integral_add_measure (integrable_dirac (by simp)) (integrable_dirac (by simp)),
    integral_dirac, integral_dirac]
  simp
  ring

end Fair

/-- A fair coin and a copy of it. -/
noncomputable abbrev coins : Measure ((Fin 1 → ℝ) × (Fin 1 → ℝ)) := fair (![0], ![0]) (![1], ![1])

theorem coins_moments : Spec.Moments 1 coins := ⟨integrable_fair _ _ _, integrable_fair _ _ _, integrable_fair _ _ _⟩

theorem dist_one (a b : ℝ) : Spec.dist 1 ![a] ![b] = |a - b| := by
  simp [Spec.dist, Real.sqrt_sq_eq_abs]

theorem dcovPop_coins : Spec.dcovPop 1 coins = 1 / 4 := by
  simp only [Spec.dcovPop, integral_fair, dist_one]
  norm_num

theorem map_fair {S S' : Type} [MeasurableSpace S] [MeasurableSpace S'] {f : S → S'} (hf : Measurable f) (u v : S) :
    (fair u v).map f = fair (f u) (f v) := by
  rw [fair, Measure.map_smul, Measure.map_add _ _ hf, Measure.map_dirac' hf, Measure.map_dirac' hf, fair]

theorem twice_coins : twiceFst coins = coins ∧ twiceSnd coins = coins :=
  ⟨map_fair (by fun_prop) _ _, map_fair (by fun_prop) _ _⟩

/-- Observations of two equal coins: the squared distance covariance tends to 1/4. -/
example : ∀ᵐ ω ∂(Measure.infinitePi fun _ : ℕ => coins),
    ReturnsTo atTop (fun n => (distanceCovarianceSqr stdEnv (npMat fun i : Fin n => (ω i).1)
      (npMat fun i : Fin n => (ω i).2) ⟨1, .enum .naive, .auto⟩).out) (1 / 4) := by
  filter_upwards [C99_covariance (env := stdEnv) one_pos (exists_sample coins) coins_moments] with ω h
  have := (h _ _ (fun _ => ⟨1, .enum .naive, .auto⟩) (fun _ => rfl)
    (Eventually.of_forall fun n => supported_mat (fun i : Fin n => (ω i).1) (fun i : Fin n => (ω i).2) 1 zero_le_one)).1
  rwa [dcovPop_coins] at this

/-- The distance correlation of two equal coins tends to 1. -/
example : ∀ᵐ ω ∂(Measure.infinitePi fun _ : ℕ => coins),
    ReturnsTo atTop (fun n => (distanceCorrelationSqr stdEnv (npMat fun i : Fin n => (ω i).1)
      (npMat fun i : Fin n => (ω i).2) ⟨1, .enum .naive, .auto⟩).out) 1 := by
  filter_upwards [C99_correlation (env := stdEnv) one_pos (exists_sample coins) (integrable_fair _ _ _)
    (integrable_fair _ _ _) (by rw [twice_coins.1, dcovPop_coins]; norm_num)
    (by rw [twice_coins.2, dcovPop_coins]; norm_num)] with ω h
  have := (h _ _ (fun _ => ⟨1, .enum .naive, .auto⟩) (fun _ => rfl)
    (Eventually.of_forall fun n => supported_mat (fun i : Fin n => (ω i).1) (fun i : Fin n => (ω i).2) 1 zero_le_one)).1
  rw [twice_coins.1, twice_coins.2, dcovPop_coins, Real.sqrt_mul_self (by norm_num)] at this
  norm_num at this
  exact this

/-- The test of two equal coins rejects. -/
example : ∀ᵐ ω ∂(Measure.infinitePi fun _ : ℕ => coins),
    Rejects (B := B) (fun n => n) (fun n σ => (distanceCovarianceTest stdEnv (Rng.replay σ)
      (npMat fun i : Fin n => (ω i).1) (npMat fun i : Fin n => (ω i).2) B 1 (.gen 0) none).out) := by
  filter_upwards [C99_dcov_test (env := stdEnv) (nJobs := none) (B := B) one_pos one_le_two (by simp)
    (exists_sample coins) coins_moments (by rw [dcovPop_coins]; norm_num)] with ω h
  refine h _ _ ?_
  filter_upwards [eventually_gt_atTop 0] with n hn
  exact dcovTestCall_mat hn _ _ zero_le_one

/-- A coin with the sides 0 and `a`. -/
noncomputable abbrev coin (a : ℝ) : Measure (Fin 1 → ℝ) := fair ![0] ![a]

theorem coin_sample (a : ℝ) : Spec.Sample (Measure.infinitePi fun _ : ℕ => coin 1) (fun i ω c => a * ω i c) (coin a) := by
  have h := (exists_sample (coin 1)).comp (f := fun (x : Fin 1 → ℝ) c => a * x c) (by fun_prop)
  rw [map_fair (by fun_prop)] at h
  have e0 : (fun c : Fin 1 => a * (![0] : Fin 1 → ℝ) c) = ![0] := by
    funext c
    simp
  have e1 : (fun c : Fin 1 => a * (![1] : Fin 1 → ℝ) c) = ![a] := by
    funext c
    simp
  rwa [e0, e1] at h

theorem energyPop_coin : Spec.energyPop 1 (coin 1) (coin 2) = 1 / 2 := by
  simp only [Spec.energyPop, integral_fair, dist_one]
  norm_num

/-- Coins with the sides 0, 1 and 0, 2: the energy distance tends to 1/2, even if they always show the same side. -/
example (s : EstStat) : ∀ᵐ ω ∂(Measure.infinitePi fun _ : ℕ => coin 1),
    ReturnsTo (atTop ×ˢ atTop) (fun n => (energyDistance stdEnv (npMat fun (i : Fin n.1) c => 1 * ω i c)
      (npMat fun (i : Fin n.2) c => 2 * ω i c) ⟨1, none, .enum s⟩).out.map Scalar.val) (1 / 2) := by
  filter_upwards [C99_energy_distance (env := stdEnv) one_pos (coin_sample 1) (coin_sample 2) (integrable_fair _ _ _)
    (integrable_fair _ _ _)] with ω h
  have := h _ _ (fun _ => ⟨1, none, .enum s⟩) s (fun _ => rfl) (fun _ => rfl) (Eventually.of_forall fun n =>
    energyCall_mat (fun (i : Fin n.1) c => 1 * ω i c) (fun (i : Fin n.2) c => 2 * ω i c) zero_le_one (.enum s))
  rwa [energyPop_coin] at this

/-- The energy test of coins with the sides 0 and 1, 2, 3 rejects. -/
example : ∀ᵐ ω ∂(Measure.infinitePi fun _ : ℕ => coin 1), ∀ (sz : ℕ → Fin 3 → ℕ),
    (∀ a, Tendsto (fun n => sz n a) atTop atTop) → Rejects (B := B) (fun n => ∑ a, sz n a)
      (fun n σ => (energyTest stdEnv (Rng.replay σ) (List.ofFn fun a : Fin 3 => npMat fun (i : Fin (sz n a)) (c : Fin 1) =>
        ((a : ℕ) + 1 : ℝ) * ω i c) B ⟨1, none, .enum .v⟩ (.gen 0) none).out) := by
  have hpos : 0 < Spec.energyPop 1 (coin (((0 : Fin 3) : ℕ) + 1)) (coin (((1 : Fin 3) : ℕ) + 1)) := by
    have e0 : (((0 : Fin 3) : ℕ) : ℝ) + 1 = 1 := by norm_num
    have e1 : (((1 : Fin 3) : ℕ) : ℝ) + 1 = 2 := by norm_num
    rw [e0, e1, energyPop_coin]
    norm_num
  filter_upwards [C99_energy_test (env := stdEnv) (nJobs := none) (B := B) one_pos one_le_two (by simp)
    (fun a : Fin 3 => coin_sample ((a : ℕ) + 1)) (fun a => integrable_fair _ _ _) (a := 0) (b := 1) hpos] with ω h
  intro sz hsz
  refine h sz _ (fun _ => ⟨1, none, .enum .v⟩) hsz (fun _ => rfl) (fun _ => rfl) ?_
  filter_upwards [eventually_all.2 fun a => (hsz a).eventually_gt_atTop 0] with n hn
  exact energyTestCall_mat (by norm_num) hn (fun (a : Fin 3) (i : Fin (sz n a)) c => ((a : ℕ) + 1 : ℝ) * ω i c)
    zero_le_one _

example := C99_dcov_nonneg one_pos one_le_two coins_moments
example := C99_energy_nonneg one_pos one_le_two (μ := coin 1) (ν := coin 2) (integrable_fair _ _ _)
  (integrable_fair _ _ _)

end Dcor.Props

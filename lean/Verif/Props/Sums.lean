/-
Property C124: adding independent noise does not make samples more dependent, or more different.

The distance covariance of sums of independent pairs is at most the sum of the distance covariances, and the root of the energy
distance of sums is at most the sum of the roots of the energy distances. This is about the limits of the returned values for
growing samples, and about the values themselves if every observation occurs with every error.
-/
import Verif.Proofs.Sums
import Verif.Props.ConditionalIndependence

namespace Dcor.Props

open Finset MeasureTheory ProbabilityTheory Filter Topology

variable {env : Env} {p q n m : ℕ} {α : ℝ} {Ω : Type*} {mΩ : MeasurableSpace Ω} {P : Measure Ω}

/-- `distance_covariance` of the first `n` pairs of a sequence, with any methods, tends to `a`. -/
def DcovTendsTo (env : Env) (α : ℝ) (z : ℕ → (Fin p → ℝ) × (Fin q → ℝ)) (a : ℝ) : Prop :=
  ∀ (x y : ℕ → Arr) (o : ℕ → Opts), (∀ n, (o n).exponent = α) →
    (∀ᶠ n in atTop, Supported env (x n) (y n) (o n) (fun i : Fin n => (z i).1) (fun i : Fin n => (z i).2)) →
    ReturnsTo atTop (fun n => (distanceCovariance env (x n) (y n) (o n)).out) a

/-- `energy_distance` of the first observations of two sequences tends to `a`, with both estimation statistics. -/
def EnergyTendsTo (env : Env) (α : ℝ) (u v : ℕ → Fin p → ℝ) (a : ℝ) : Prop :=
  ∀ (x y : ℕ × ℕ → Arr) (o : ℕ × ℕ → EnergyOpts) (s : EstStat), (∀ n, (o n).exponent = α) →
    (∀ n, (o n).stat.resolve env = .ok s) →
    (∀ᶠ n in atTop ×ˢ atTop, EnergyCall (x n) (y n) (o n) (fun i : Fin n.1 => u i) (fun i : Fin n.2 => v i)) →
    ReturnsTo (atTop ×ˢ atTop) (fun n => (energyDistance env (x n) (y n) (o n)).out.map Scalar.val) a

theorem sample_fst {S S' : Type*} [MeasurableSpace S] [MeasurableSpace S'] {Z : ℕ → Ω → S} {W : ℕ → Ω → S'} {μ : Measure S}
    {ν : Measure S'} [IsProbabilityMeasure μ] [IsProbabilityMeasure ν]
    (h : Spec.Sample P (fun i ω => (Z i ω, W i ω)) (μ.prod ν)) : Spec.Sample P Z μ := by
  have := h.comp measurable_fst
  rwa [Measure.map_fst_prod, measure_univ, one_smul] at this

theorem sample_snd {S S' : Type*} [MeasurableSpace S] [MeasurableSpace S'] {Z : ℕ → Ω → S} {W : ℕ → Ω → S'} {μ : Measure S}
    {ν : Measure S'} [IsProbabilityMeasure μ] [IsProbabilityMeasure ν]
    (h : Spec.Sample P (fun i ω => (Z i ω, W i ω)) (μ.prod ν)) : Spec.Sample P W ν := by
  have := h.comp measurable_snd
  rwa [Measure.map_snd_prod, measure_univ, one_smul] at this

theorem sample_add {S : Type*} [MeasurableSpace S] [Add S] [MeasurableAdd₂ S] {Z W : ℕ → Ω → S} {μ ν : Measure S}
    (h : Spec.Sample P (fun i ω => (Z i ω, W i ω)) (μ.prod ν)) :
    Spec.Sample P (fun i ω => Z i ω + W i ω) (Charac.sumLaw μ ν) :=
  h.comp (f := fun r : S × S => r.1 + r.2) (measurable_fst.add measurable_snd)

section Dcov

variable {Z W : ℕ → Ω → (Fin p → ℝ) × (Fin q → ℝ)} {μ ν : Measure ((Fin p → ℝ) × (Fin q → ℝ))} [IsProbabilityMeasure μ]
  [IsProbabilityMeasure ν]

private theorem dcov_sums (hα : 0 < α) (hZ : Spec.Sample P (fun i ω => (Z i ω, W i ω)) (μ.prod ν))
    (hμ : Spec.Moments α μ) (hν : Spec.Moments α ν) :
    ∀ᵐ ω ∂P, DcovTendsTo env α (fun i => Z i ω) (Real.sqrt (Spec.dcovPop α μ)) ∧
      DcovTendsTo env α (fun i => W i ω) (Real.sqrt (Spec.dcovPop α ν)) ∧
      DcovTendsTo env α (fun i => Z i ω + W i ω) (Real.sqrt (Spec.dcovPop α (Charac.sumLaw μ ν))) := by
  have _ := Charac.sumLaw_prob μ ν
  filter_upwards [C99_covariance (env := env) hα (sample_fst hZ) hμ, C99_covariance (env := env) hα (sample_snd hZ) hν,
    C99_covariance (env := env) hα (sample_add hZ) (Charac.moments_sumLaw hα.le hμ hν)] with ω h1 h2 h3
  exact ⟨fun x y o ho hs => (h1 x y o ho hs).2.2, fun x y o ho hs => (h2 x y o ho hs).2.2,
    fun x y o ho hs => (h3 x y o ho hs).2.2⟩

/-- C124: `distance_covariance` of the sums of two independent samples of pairs tends to a number that is at most the sum of
the limits for the two samples. -/
theorem C124_covariance (hα : 0 < α) (hα2 : α < 2) (hZ : Spec.Sample P (fun i ω => (Z i ω, W i ω)) (μ.prod ν))
    (hμ : Spec.Moments α μ) (hν : Spec.Moments α ν) :
    ∃ a b c : ℝ, c ≤ a + b ∧ ∀ᵐ ω ∂P, DcovTendsTo env α (fun i => Z i ω) a ∧ DcovTendsTo env α (fun i => W i ω) b ∧
      DcovTendsTo env α (fun i => Z i ω + W i ω) c :=
  ⟨_, _, _, Charac.sqrt_dcovPop_sumLaw hα hα2 hμ hν, dcov_sums hα hZ hμ hν⟩

/-- C124: errors of measurement that are independent of the values, and of each other, do not make `distance_covariance` larger,
in the limit. -/
theorem C124_noise (hα : 0 < α) (hα2 : α < 2) (hZ : Spec.Sample P (fun i ω => (Z i ω, W i ω)) (μ.prod ν))
    (hμ : Spec.Moments α μ) (hν : Spec.Moments α ν) (hi : IndepFun Prod.fst Prod.snd ν) :
    ∃ a c : ℝ, c ≤ a ∧ ∀ᵐ ω ∂P, DcovTendsTo env α (fun i => Z i ω) a ∧ DcovTendsTo env α (fun i => Z i ω + W i ω) c := by
  refine ⟨_, _, ?_, (dcov_sums hα hZ hμ hν).mono fun ω h => ⟨h.1, h.2.2⟩⟩
  have h := Charac.sqrt_dcovPop_sumLaw hα hα2 hμ hν
  rwa [(C100_dcov_zero hα hα2 hν).2 hi, Real.sqrt_zero, add_zero] at h

end Dcov

/-- C124: the distance standard deviation (`distance_covariance(x, x)`) of sums of independent observations is at most the sum
of the distance standard deviations, in the limit. -/
theorem C124_standard_deviation {X X' : ℕ → Ω → Fin p → ℝ} {μ ν : Measure (Fin p → ℝ)} [IsProbabilityMeasure μ]
    [IsProbabilityMeasure ν] (hα : 0 < α) (hα2 : α < 2) (hX : Spec.Sample P (fun i ω => (X i ω, X' i ω)) (μ.prod ν))
    (hμ : Integrable (fun x => Spec.dist α x 0 ^ 2) μ) (hν : Integrable (fun x => Spec.dist α x 0 ^ 2) ν) :
    ∃ a b c : ℝ, c ≤ a + b ∧ ∀ᵐ ω ∂P, DcovTendsTo env α (fun i => (X i ω, X i ω)) a ∧
      DcovTendsTo env α (fun i => (X' i ω, X' i ω)) b ∧
      DcovTendsTo env α (fun i => (X i ω + X' i ω, X i ω + X' i ω)) c := by
  have md : Measurable fun x : Fin p → ℝ => (x, x) := by fun_prop
  have _ : IsProbabilityMeasure (μ.map fun x => (x, x)) := Measure.isProbabilityMeasure_map md.aemeasurable
  have _ : IsProbabilityMeasure (ν.map fun x => (x, x)) := Measure.isProbabilityMeasure_map md.aemeasurable
  have h := hX.comp (f := fun r : (Fin p → ℝ) × (Fin p → ℝ) => ((r.1, r.1), (r.2, r.2))) (by fun_prop)
  have e : (μ.prod ν).map (fun r : (Fin p → ℝ) × (Fin p → ℝ) => ((r.1, r.1), (r.2, r.2)))
      = (μ.map fun x => (x, x)).prod (ν.map fun x => (x, x)) := (Measure.map_prod_map μ ν md md).symm
  rw [e] at h
  exact C124_covariance (env := env) hα hα2 h (Consistency.moments_map hα.le measurable_id measurable_id hμ hμ)
    (Consistency.moments_map hα.le measurable_id measurable_id hν hν)

section Energy

variable {X X' Y Y' : ℕ → Ω → Fin p → ℝ} {μ μ' ν ν' : Measure (Fin p → ℝ)} [IsProbabilityMeasure μ] [IsProbabilityMeasure μ']
  [IsProbabilityMeasure ν] [IsProbabilityMeasure ν']

/-- C124: the root of the limit of `energy_distance` of the sums of independent samples is at most the sum of the roots of the
limits for the summands. -/
theorem C124_energy (hα : 0 < α) (hα2 : α < 2) (hX : Spec.Sample P (fun i ω => (X i ω, X' i ω)) (μ.prod μ'))
    (hY : Spec.Sample P (fun i ω => (Y i ω, Y' i ω)) (ν.prod ν')) (hμ : Integrable (fun x => Spec.dist α x 0) μ)
    (hμ' : Integrable (fun x => Spec.dist α x 0) μ') (hν : Integrable (fun x => Spec.dist α x 0) ν)
    (hν' : Integrable (fun x => Spec.dist α x 0) ν') :
    ∃ a b c : ℝ, Real.sqrt c ≤ Real.sqrt a + Real.sqrt b ∧ (μ' = ν' → c ≤ a) ∧
      ∀ᵐ ω ∂P, EnergyTendsTo env α (fun i => X i ω) (fun i => Y i ω) a ∧
        EnergyTendsTo env α (fun i => X' i ω) (fun i => Y' i ω) b ∧
        EnergyTendsTo env α (fun i => X i ω + X' i ω) (fun i => Y i ω + Y' i ω) c := by
  have _ := Charac.sumLaw_prob μ μ'
  have _ := Charac.sumLaw_prob ν ν'
  have h := Charac.sqrt_energyPop_sumLaw hα hα2 hμ hμ' hν hν'
  refine ⟨_, _, _, h, fun e => ?_, ?_⟩
  · rw [(C100_energy_zero hα hα2 hμ' hν').2 e, Real.sqrt_zero, add_zero] at h
    exact (Real.sqrt_le_sqrt_iff (Charac.energyPop_nonneg' hα hα2 hμ hν)).1 h
  · filter_upwards [C99_energy_distance (env := env) hα (sample_fst hX) (sample_fst hY) hμ hν,
      C99_energy_distance (env := env) hα (sample_snd hX) (sample_snd hY) hμ' hν',
      C99_energy_distance (env := env) hα (sample_add hX) (sample_add hY) (Charac.integrable_sumLaw hα.le hμ hμ')
        (Charac.integrable_sumLaw hα.le hν hν')] with ω h1 h2 h3
    exact ⟨h1, h2, h3⟩

end Energy

/-! ### Samples in which every observation occurs with every error -/

/-- The sums of the elements of two samples, in the order of two nested loops. -/
def allSums {S : Type} [Add S] (u : Fin n → S) (v : Fin m → S) (k : Fin (n * m)) : S := u k.divNat + v k.modNat

theorem sum_allSums {S : Type} [Add S] (u : Fin n → S) (v : Fin m → S) (f : S → ℝ) :
    ∑ k, f (allSums u v k) = ∑ i, ∑ j, f (u i + v j) := by
  rw [← Fintype.sum_prod_type', ← finProdFinEquiv.symm.sum_comp fun r : Fin n × Fin m => f (u r.1 + v r.2)]
  rfl

theorem uniform_apply {S : Type} [MeasurableSpace S] (u : Fin n → S) {A : Set S} (hA : MeasurableSet A) :
    uniform u A = (n : ENNReal)⁻¹ * ∑ i, A.indicator 1 (u i) := by
  simp only [uniform, Measure.smul_apply, Measure.finsetSum_apply, Measure.dirac_apply' _ hA, smul_eq_mul]

theorem sumLaw_uniform {S : Type} [MeasurableSpace S] [Add S] [MeasurableAdd₂ S] (u : Fin n → S) (v : Fin m → S)
    (hn : n ≠ 0) (hm : m ≠ 0) : Charac.sumLaw (uniform u) (uniform v) = uniform (allSums u v) := by
  have _ := uniform_prob u hn
  have _ := uniform_prob v hm
  have key : (uniform u).prod (uniform v) = uniform fun k : Fin (n * m) => (u k.divNat, v k.modNat) := by
    refine Measure.prod_eq fun A B hA hB => ?_
    rw [uniform_apply _ hA, uniform_apply _ hB, uniform_apply _ (hA.prod hB), Nat.cast_mul,
      ENNReal.mul_inv (by simp) (by simp), mul_mul_mul_comm, Finset.sum_mul_sum, ← Fintype.sum_prod_type',
      ← finProdFinEquiv.symm.sum_comp]
    congr 1
    refine sum_congr rfl fun k _ => ?_
    have e : (A ×ˢ B).indicator (1 : S × S → ENNReal) (u k.divNat, v k.modNat)
        = A.indicator 1 (u k.divNat) * B.indicator 1 (v k.modNat) := by
      classical
      simp only [Set.indicator_apply, Set.mem_prod, Pi.one_apply]
      split_ifs <;> simp_all
    exact e
  have ma : Measurable fun r : S × S => r.1 + r.2 := measurable_fst.add measurable_snd
  rw [Charac.sumLaw, key, map_uniform _ ma]
  rfl

theorem dcovPop_uniform (α : ℝ) (z : Fin n → (Fin p → ℝ) × (Fin q → ℝ)) (hn : 0 < n) :
    Spec.dcovPop α (uniform z) = Spec.dcovSqr (Spec.distMat α fun i => (z i).1) (Spec.distMat α fun i => (z i).2) := by
  rw [Spec.dcovSqr_eq_terms _ _ (Spec.distMat_symm _ _) (Spec.distMat_symm _ _) hn]
  simp only [Spec.dcovPop, integral_uniform, Spec.distMat, ← sum_div, div_mul_div_comm]
  have : (n : ℝ) ≠ 0 := by positivity
  field_simp
  ring

theorem energyPop_uniform (α : ℝ) (u : Fin n → Fin p → ℝ) (v : Fin m → Fin p → ℝ) :
    Spec.energyPop α (uniform u) (uniform v) = Spec.energyV α u v := by
  simp only [Spec.energyPop, integral_uniform, Spec.energyV, Spec.crossMean, ← sum_div, div_div]
  ring

/-- C124: if the sample contains every pair `(X i, Y i)` with every error `(E j, F j)`, then `distance_covariance` of it is at most
`distance_covariance(X, Y) + distance_covariance(E, F)`, for the returned values and not only in the limit. -/
theorem C124_all_sums {X : Fin n → Fin p → ℝ} {Y : Fin n → Fin q → ℝ} {E : Fin m → Fin p → ℝ} {F : Fin m → Fin q → ℝ}
    {x y e f s t : Arr} {o : Opts} (h : Supported env x y o X Y) (h' : Supported env e f o E F)
    (hs : Supported env s t o (allSums X E) (allSums Y F)) (hα : 0 < o.exponent) (hα2 : o.exponent < 2) (hn : 0 < n)
    (hm : 0 < m) :
    ∃ a b c : ℝ, (distanceCovariance env x y o).out = .ok (.fin a) ∧ (distanceCovariance env e f o).out = .ok (.fin b) ∧
      (distanceCovariance env s t o).out = .ok (.fin c) ∧ c ≤ a + b := by
  refine ⟨_, _, _, distanceCovariance_ok h hn, distanceCovariance_ok h' hm, distanceCovariance_ok hs (Nat.mul_pos hn hm), ?_⟩
  have _ := uniform_prob (fun i => (X i, Y i)) hn.ne'
  have _ := uniform_prob (fun j => (E j, F j)) hm.ne'
  have k := Charac.sqrt_dcovPop_sumLaw hα hα2 (μ₁ := uniform fun i => (X i, Y i)) (μ₂ := uniform fun j => (E j, F j))
    ⟨integrable_uniform _ hn.ne' _, integrable_uniform _ hn.ne' _, integrable_uniform _ hn.ne' _⟩
    ⟨integrable_uniform _ hm.ne' _, integrable_uniform _ hm.ne' _, integrable_uniform _ hm.ne' _⟩
  rw [sumLaw_uniform _ _ hn.ne' hm.ne', dcovPop_uniform _ _ hn, dcovPop_uniform _ _ hm,
    dcovPop_uniform _ _ (Nat.mul_pos hn hm)] at k
  exact k

private theorem energy_all_sums {m' n' : ℕ} (X : Fin n → Fin p → ℝ) (Y : Fin m → Fin p → ℝ) (E : Fin n' → Fin p → ℝ)
    (F : Fin m' → Fin p → ℝ) (hα : 0 < α) (hα2 : α < 2) (hn : 0 < n) (hm : 0 < m) (hn' : 0 < n') (hm' : 0 < m') :
    Real.sqrt (Spec.energyV α (allSums X E) (allSums Y F)) ≤ Real.sqrt (Spec.energyV α X Y) + Real.sqrt (Spec.energyV α E F) := by
  have _ := uniform_prob X hn.ne'
  have _ := uniform_prob Y hm.ne'
  have _ := uniform_prob E hn'.ne'
  have _ := uniform_prob F hm'.ne'
  have k := Charac.sqrt_energyPop_sumLaw hα hα2 (integrable_uniform X hn.ne' _) (integrable_uniform E hn'.ne' _)
    (integrable_uniform Y hm.ne' _) (integrable_uniform F hm'.ne' _)
  rwa [sumLaw_uniform _ _ hn.ne' hn'.ne', sumLaw_uniform _ _ hm.ne' hm'.ne', energyPop_uniform, energyPop_uniform,
    energyPop_uniform] at k

/-- C124: if the samples contain every observation with every error, then the root of `energy_distance` of them (V-statistic) is
at most the sum of the roots for the observations and for the errors. -/
theorem C124_energy_all_sums {m' n' : ℕ} {X : Fin n → Fin p → ℝ} {Y : Fin m → Fin p → ℝ} {E : Fin n' → Fin p → ℝ}
    {F : Fin m' → Fin p → ℝ} {x y e f s t : Arr} {o : EnergyOpts} (h : EnergyCall x y o X Y) (h' : EnergyCall e f o E F)
    (hs : EnergyCall s t o (allSums X E) (allSums Y F)) (hv : o.stat.resolve env = .ok .v) (hα : 0 < o.exponent)
    (hα2 : o.exponent < 2) (hn : 0 < n) (hm : 0 < m) (hn' : 0 < n') (hm' : 0 < m') :
    ∃ a b c : ℝ, (energyDistance env x y o).out.map Scalar.val = .ok (.fin a) ∧
      (energyDistance env e f o).out.map Scalar.val = .ok (.fin b) ∧
      (energyDistance env s t o).out.map Scalar.val = .ok (.fin c) ∧ Real.sqrt c ≤ Real.sqrt a + Real.sqrt b :=
  ⟨_, _, _, by rw [energyDistance_v h hv hn hm]; rfl, by rw [energyDistance_v h' hv hn' hm']; rfl,
    by rw [energyDistance_v hs hv (Nat.mul_pos hn hn') (Nat.mul_pos hm hm')]; rfl,
    energy_all_sums X Y E F hα hα2 hn hm hn' hm'⟩

/-- C124: the same errors added to the observations of two samples, every error to every observation, do not make
`energy_distance` (V-statistic) larger. -/
theorem C124_energy_same_errors {k : ℕ} {X : Fin n → Fin p → ℝ} {Y : Fin m → Fin p → ℝ} {E : Fin k → Fin p → ℝ}
    {x y s t : Arr} {o : EnergyOpts} (h : EnergyCall x y o X Y) (hs : EnergyCall s t o (allSums X E) (allSums Y E))
    (hv : o.stat.resolve env = .ok .v) (hα : 0 < o.exponent) (hα2 : o.exponent < 2) (hn : 0 < n) (hm : 0 < m) (hk : 0 < k) :
    ∃ a c : ℝ, (energyDistance env x y o).out.map Scalar.val = .ok (.fin a) ∧
      (energyDistance env s t o).out.map Scalar.val = .ok (.fin c) ∧ c ≤ a := by
  refine ⟨_, _, by rw [energyDistance_v h hv hn hm]; rfl,
    by rw [energyDistance_v hs hv (Nat.mul_pos hn hk) (Nat.mul_pos hm hk)]; rfl, ?_⟩
  have _ := uniform_prob X hn.ne'
  have _ := uniform_prob Y hm.ne'
  have r := energy_all_sums X Y E E hα hα2 hn hm hk hk
  have z : Spec.energyV o.exponent E E = 0 := by simp only [Spec.energyV]; ring
  have l := Charac.energyPop_nonneg' hα hα2 (integrable_uniform X hn.ne' _) (integrable_uniform Y hm.ne' _)
  rw [energyPop_uniform] at l
  rw [z, Real.sqrt_zero, add_zero] at r
  exact (Real.sqrt_le_sqrt_iff l).1 r

/-- C124: for single samples, observations and errors added one by one, the inequality fails: neither the observations nor the
errors of this sample show any dependence, the sums do. -/
theorem C124_single_sums_exceed : ∃ X Y E F : Fin 2 → Fin 1 → ℝ,
    (distanceCovariance stdEnv (npMat X) (npMat Y) ⟨1, .enum .naive, .auto⟩).out = .ok (.fin 0) ∧
    (distanceCovariance stdEnv (npMat E) (npMat F) ⟨1, .enum .naive, .auto⟩).out = .ok (.fin 0) ∧
    (distanceCovariance stdEnv (npMat fun i => X i + E i) (npMat fun i => Y i + F i) ⟨1, .enum .naive, .auto⟩).out
      = .ok (.fin (1 / 2)) := by
  refine ⟨![![0], ![0]], ![![0], ![1]], ![![0], ![1]], ![![0], ![0]], ?_, ?_, ?_⟩ <;>
    rw [distanceCovariance_ok (supported_mat _ _ 1 zero_le_one) two_pos,
      Spec.dcovSqr_eq_terms _ _ (Spec.distMat_symm _ _) (Spec.distMat_symm _ _) two_pos]
  · simp [Spec.distMat, Spec.dist, Fin.sum_univ_two]
  · simp [Spec.distMat, Spec.dist, Fin.sum_univ_two]
  · have e : √((1 : ℝ) / 4) = 1 / 2 := by
      rw [show (1 : ℝ) / 4 = (1 / 2) ^ 2 by norm_num]; exact Real.sqrt_sq (by norm_num)
    rw [← e]
    congr 4
    norm_num [Spec.distMat, Spec.dist, Fin.sum_univ_two]

/-! ### Cases that meet the hypotheses -/

/-- Two equal coins, observed with another pair of equal coins added. -/
example : ∃ a b c : ℝ, c ≤ a + b ∧ ∀ᵐ ω ∂(Measure.infinitePi fun _ : ℕ => coins.prod coins),
    DcovTendsTo stdEnv 1 (fun i => (ω i).1) a ∧ DcovTendsTo stdEnv 1 (fun i => (ω i).2) b ∧
      DcovTendsTo stdEnv 1 (fun i => (ω i).1 + (ω i).2) c :=
  C124_covariance one_pos one_lt_two (exists_sample (coins.prod coins)) coins_moments coins_moments

/-- Calls with any numbers of observations have a limit to speak of. -/
example (z : ℕ → (Fin 1 → ℝ) × (Fin 1 → ℝ)) : ∀ n, Supported stdEnv (npMat fun i : Fin n => (z i).1)
    (npMat fun i : Fin n => (z i).2) ⟨1, .enum .naive, .auto⟩ (fun i : Fin n => (z i).1) (fun i : Fin n => (z i).2) :=
  fun _ => supported_mat _ _ 1 zero_le_one

/-- Two equal coins, observed with the errors `-1` and `1` in the first part. -/
example : ∃ a c : ℝ, c ≤ a ∧ ∀ᵐ ω ∂(Measure.infinitePi fun _ : ℕ => coins.prod (fair (![-1], ![0]) (![1], ![0]))),
    DcovTendsTo stdEnv 1 (fun i => (ω i).1) a ∧ DcovTendsTo stdEnv 1 (fun i => (ω i).1 + (ω i).2) c := by
  have hm : Spec.Moments 1 (fair ((![-1], ![0]) : (Fin 1 → ℝ) × (Fin 1 → ℝ)) (![1], ![0])) :=
    ⟨integrable_fair _ _ _, integrable_fair _ _ _, integrable_fair _ _ _⟩
  refine C124_noise one_pos one_lt_two (exists_sample _) coins_moments hm ((C100_dcov_zero one_pos one_lt_two hm).1 ?_)
  simp only [Spec.dcovPop, integral_fair]
  simp [Spec.dist]

/-- The sum of two coins. -/
example : ∃ a b c : ℝ, c ≤ a + b ∧
    ∀ᵐ ω ∂(Measure.infinitePi fun _ : ℕ => (fair ![0] ![1] : Measure (Fin 1 → ℝ)).prod (fair ![0] ![1])),
    DcovTendsTo stdEnv 1 (fun i => ((ω i).1, (ω i).1)) a ∧ DcovTendsTo stdEnv 1 (fun i => ((ω i).2, (ω i).2)) b ∧
      DcovTendsTo stdEnv 1 (fun i => ((ω i).1 + (ω i).2, (ω i).1 + (ω i).2)) c :=
  C124_standard_deviation one_pos one_lt_two (exists_sample _) (integrable_fair _ _ _) (integrable_fair _ _ _)

/-- Coins with the sides 0, 1 and 2, 3, both observed with the errors 0 and 5. -/
example : ∃ a b c : ℝ, Real.sqrt c ≤ Real.sqrt a + Real.sqrt b ∧
    ((fair ![0] ![5] : Measure (Fin 1 → ℝ)) = fair ![0] ![5] → c ≤ a) ∧
    ∀ᵐ ω ∂(Measure.infinitePi fun _ : ℕ => ((fair ![0] ![1] : Measure (Fin 1 → ℝ)).prod (fair ![0] ![5])).prod
      ((fair ![2] ![3] : Measure (Fin 1 → ℝ)).prod (fair ![0] ![5]))),
    EnergyTendsTo stdEnv 1 (fun i => (ω i).1.1) (fun i => (ω i).2.1) a ∧
      EnergyTendsTo stdEnv 1 (fun i => (ω i).1.2) (fun i => (ω i).2.2) b ∧
      EnergyTendsTo stdEnv 1 (fun i => (ω i).1.1 + (ω i).1.2) (fun i => (ω i).2.1 + (ω i).2.2) c :=
  C124_energy one_pos one_lt_two (exists_samples _ _).1 (exists_samples _ _).2 (integrable_fair _ _ _) (integrable_fair _ _ _)
    (integrable_fair _ _ _) (integrable_fair _ _ _)

/-- Three pairs with two errors. -/
example : ∃ a b c : ℝ, (distanceCovariance stdEnv (npMat ![![0], ![1], ![5]]) (npMat ![![1], ![0], ![2]])
      ⟨1, .enum .naive, .auto⟩).out = .ok (.fin a) ∧
    (distanceCovariance stdEnv (npMat ![![0], ![1]]) (npMat ![![0], ![2]]) ⟨1, .enum .naive, .auto⟩).out = .ok (.fin b) ∧
    (distanceCovariance stdEnv (npMat (allSums ![![0], ![1], ![5]] ![![0], ![1]]))
      (npMat (allSums ![![1], ![0], ![2]] ![![0], ![2]])) ⟨1, .enum .naive, .auto⟩).out = .ok (.fin c) ∧ c ≤ a + b :=
  C124_all_sums (p := 1) (q := 1) (supported_mat _ _ 1 zero_le_one) (supported_mat _ _ 1 zero_le_one)
    (supported_mat _ _ 1 zero_le_one) one_pos one_lt_two (by norm_num) (by norm_num)

/-- The order of the sums: the errors change first. -/
example : allSums (S := ℝ) ![0, 10] ![1, 2, 3] = ![1, 2, 3, 11, 12, 13] := by
  funext k
  fin_cases k <;> norm_num [allSums, Fin.divNat, Fin.modNat]

/-- Samples of two and of one observation, with three errors of the first and two of the second. -/
example : ∃ a b c : ℝ, (energyDistance stdEnv (npMat ![![0], ![1]]) (npMat ![![4]]) ⟨1, none, .enum .v⟩).out.map Scalar.val
      = .ok (.fin a) ∧
    (energyDistance stdEnv (npMat ![![0], ![1], ![3]]) (npMat ![![0], ![2]]) ⟨1, none, .enum .v⟩).out.map Scalar.val
      = .ok (.fin b) ∧
    (energyDistance stdEnv (npMat (allSums ![![0], ![1]] ![![0], ![1], ![3]])) (npMat (allSums ![![4]] ![![0], ![2]]))
      ⟨1, none, .enum .v⟩).out.map Scalar.val = .ok (.fin c) ∧ Real.sqrt c ≤ Real.sqrt a + Real.sqrt b :=
  C124_energy_all_sums (p := 1) (energyCall_mat _ _ zero_le_one _) (energyCall_mat _ _ zero_le_one _)
    (energyCall_mat _ _ zero_le_one _) rfl one_pos one_lt_two (by norm_num) (by norm_num) (by norm_num) (by norm_num)

/-- The same three errors in both samples. -/
example : ∃ a c : ℝ, (energyDistance stdEnv (npMat ![![0], ![1]]) (npMat ![![4]]) ⟨1, none, .enum .v⟩).out.map Scalar.val
      = .ok (.fin a) ∧
    (energyDistance stdEnv (npMat (allSums ![![0], ![1]] ![![0], ![1], ![3]])) (npMat (allSums ![![4]] ![![0], ![1], ![3]]))
      ⟨1, none, .enum .v⟩).out.map Scalar.val = .ok (.fin c) ∧ c ≤ a :=
  C124_energy_same_errors (p := 1) (energyCall_mat _ _ zero_le_one _) (energyCall_mat _ _ zero_le_one _) rfl one_pos one_lt_two
    (by norm_num) (by norm_num) (by norm_num)

end Dcor.Props

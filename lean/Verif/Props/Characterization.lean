/-
Property C100: for exponents below two the limits of the covariances are zero only for independent variables, the limits
of the energy distances only for equal distributions, and the permutation tests find every dependence and every difference.
-/
import Verif.Proofs.CharacZero
import Verif.Proofs.ClosedForms
import Verif.Props.Consistency
import Verif.Props.Independence

namespace Dcor.Props

open Finset MeasureTheory ProbabilityTheory Filter Topology

variable {env : Env} {nJobs : Option ℤ} {p q B k : ℕ} {α : ℝ} {Ω : Type*} {mΩ : MeasurableSpace Ω} {P : Measure Ω}

/-! ### Distributions -/

section Distributions

variable {μ : Measure ((Fin p → ℝ) × (Fin q → ℝ))} [IsProbabilityMeasure μ]

/-- C100: the distance covariance of a distribution is zero exactly for independent parts. -/
theorem C100_dcov_zero (hα : 0 < α) (hα2 : α < 2) (hm : Spec.Moments α μ) :
    Spec.dcovPop α μ = 0 ↔ IndepFun Prod.fst Prod.snd μ := by
  rw [Charac.dcovPop_eq_zero hα hα2 hm, Charac.parts_iff]

/-- C100: the energy distance of two distributions is zero exactly for equal distributions. -/
theorem C100_energy_zero (hα : 0 < α) (hα2 : α < 2) {μ ν : Measure (Fin p → ℝ)} [IsProbabilityMeasure μ]
    [IsProbabilityMeasure ν] (hμ : Integrable (fun x => Spec.dist α x 0) μ)
    (hν : Integrable (fun x => Spec.dist α x 0) ν) : Spec.energyPop α μ ν = 0 ↔ μ = ν :=
  Charac.energyPop_eq_zero hα hα2 hμ hν

/-- A random vector that is independent of itself has one value only. -/
theorem constant_of_indep {S : Type*} [MeasurableSpace S] {κ : Measure S} [IsProbabilityMeasure κ]
    {f : S → Fin p → ℝ} (hf : Measurable f) (h : IndepFun f f κ) : ∃ c, ∀ᵐ z ∂κ, f z = c := by
  have h1 := (indepFun_iff_map_prod_eq_prod_map_map hf.aemeasurable hf.aemeasurable).1 h
  have _ : IsProbabilityMeasure (κ.map f) := Measure.isProbabilityMeasure_map hf.aemeasurable
  have hd : MeasurableSet (Set.diagonal (Fin p → ℝ)) := measurableSet_diagonal
  have h2 : (κ.map f).prod (κ.map f) (Set.diagonal (Fin p → ℝ))ᶜ = 0 := by
    rw [← h1, Measure.map_apply (hf.prodMk hf) hd.compl]
    have : (fun a => (f a, f a)) ⁻¹' (Set.diagonal (Fin p → ℝ))ᶜ = ∅ := by
      ext a
      simp [Set.mem_diagonal_iff]
    rw [this, measure_empty]
  have h3 := Measure.measure_ae_null_of_prod_null h2
  obtain ⟨c, hc⟩ := h3.exists
  refine ⟨c, ?_⟩
  have h4 : ∀ᵐ y ∂(κ.map f), c = y := by
    rw [ae_iff]
    refine Eq.trans (congrArg _ ?_) hc
    ext y
    simp
  exact (ae_of_ae_map hf.aemeasurable h4).mono fun z h => h.symm

/-- C100: the distance variance of the first part is zero exactly if it has one value only. -/
theorem C100_variance_zero (hα : 0 < α) (hα2 : α < 2) (hx : Integrable (fun z => Spec.dist α z.1 0 ^ 2) μ) :
    Spec.dcovPop α (twiceFst μ) = 0 ↔ ∃ c, ∀ᵐ z ∂μ, z.1 = c := by
  have mx : Measurable fun z : (Fin p → ℝ) × (Fin q → ℝ) => (z.1, z.1) := by fun_prop
  have _ : IsProbabilityMeasure (twiceFst μ) := Measure.isProbabilityMeasure_map mx.aemeasurable
  have hmx : Spec.Moments α (twiceFst μ) := Consistency.moments_map hα.le measurable_fst measurable_fst hx hx
  rw [C100_dcov_zero hα hα2 hmx]
  have e : IndepFun Prod.fst Prod.snd (twiceFst μ) ↔ IndepFun (fun z => z.1) (fun z => z.1) μ := by
    rw [indepFun_iff_map_prod_eq_prod_map_map measurable_fst.aemeasurable measurable_snd.aemeasurable,
      indepFun_iff_map_prod_eq_prod_map_map measurable_fst.aemeasurable measurable_fst.aemeasurable, twiceFst,
      Measure.map_map measurable_fst mx, Measure.map_map measurable_snd mx, Measure.map_map (by fun_prop) mx]
    rfl
  rw [e]
  constructor
  · exact constant_of_indep measurable_fst
  · rintro ⟨c, hc⟩
    exact (indepFun_const_left c _).congr (hc.mono fun z h => h.symm) (ae_eq_refl _)

omit [IsProbabilityMeasure μ] in
theorem twiceFst_swap : twiceFst (μ.map Prod.swap) = twiceSnd μ := by
  unfold twiceFst twiceSnd
  rw [Measure.map_map (by fun_prop) measurable_swap]
  rfl

theorem C100_variance_zero_snd (hα : 0 < α) (hα2 : α < 2) (hy : Integrable (fun z => Spec.dist α z.2 0 ^ 2) μ) :
    Spec.dcovPop α (twiceSnd μ) = 0 ↔ ∃ c, ∀ᵐ z ∂μ, z.2 = c := by
  have _ : IsProbabilityMeasure (μ.map Prod.swap) := Measure.isProbabilityMeasure_map measurable_swap.aemeasurable
  have c : Continuous fun z : (Fin q → ℝ) × (Fin p → ℝ) => Spec.dist α z.1 0 ^ 2 := by
    have h := (Charac.dist_continuous (p := q) hα.le).comp (by fun_prop :
      Continuous fun z : (Fin q → ℝ) × (Fin p → ℝ) => (z.1, (0 : Fin q → ℝ)))
    simp only [Function.comp_def] at h
    exact h.pow 2
  have h := C100_variance_zero (μ := μ.map Prod.swap) hα hα2
    ((integrable_map_measure c.aestronglyMeasurable measurable_swap.aemeasurable).2 hy)
  rw [twiceFst_swap] at h
  rw [h]
  refine exists_congr fun c => ?_
  have hm : MeasurableSet {z : (Fin q → ℝ) × (Fin p → ℝ) | z.1 = c} := measurable_fst (measurableSet_singleton c)
  exact ae_map_iff measurable_swap.aemeasurable hm

theorem variance_pos (hα : 0 < α) (hα2 : α < 2) (hx : Integrable (fun z => Spec.dist α z.1 0 ^ 2) μ)
    (h : ¬ ∃ c, ∀ᵐ z ∂μ, z.1 = c) : 0 < Spec.dcovPop α (twiceFst μ) := by
  have mx : Measurable fun z : (Fin p → ℝ) × (Fin q → ℝ) => (z.1, z.1) := by fun_prop
  have _ : IsProbabilityMeasure (twiceFst μ) := Measure.isProbabilityMeasure_map mx.aemeasurable
  refine lt_of_le_of_ne (C99_dcov_nonneg hα hα2.le
    (Consistency.moments_map hα.le measurable_fst measurable_fst hx hx)) fun e => h ?_
  exact (C100_variance_zero hα hα2 hx).1 e.symm

theorem variance_pos_snd (hα : 0 < α) (hα2 : α < 2) (hy : Integrable (fun z => Spec.dist α z.2 0 ^ 2) μ)
    (h : ¬ ∃ c, ∀ᵐ z ∂μ, z.2 = c) : 0 < Spec.dcovPop α (twiceSnd μ) := by
  have mx : Measurable fun z : (Fin p → ℝ) × (Fin q → ℝ) => (z.2, z.2) := by fun_prop
  have _ : IsProbabilityMeasure (twiceSnd μ) := Measure.isProbabilityMeasure_map mx.aemeasurable
  refine lt_of_le_of_ne (C99_dcov_nonneg hα hα2.le
    (Consistency.moments_map hα.le measurable_snd measurable_snd hy hy)) fun e => h ?_
  exact (C100_variance_zero_snd hα hα2 hy).1 e.symm

/-- C100: the distance covariance of a distribution is at most the geometric mean of the distance variances. -/
theorem C100_cauchy (hα : 0 < α) (hx : Integrable (fun z => Spec.dist α z.1 0 ^ 2) μ)
    (hy : Integrable (fun z => Spec.dist α z.2 0 ^ 2) μ) :
    Spec.dcovPop α μ ^ 2 ≤ Spec.dcovPop α (twiceFst μ) * Spec.dcovPop α (twiceSnd μ) := by
  have mx : Measurable fun z : (Fin p → ℝ) × (Fin q → ℝ) => (z.1, z.1) := by fun_prop
  have my : Measurable fun z : (Fin p → ℝ) × (Fin q → ℝ) => (z.2, z.2) := by fun_prop
  have _ : IsProbabilityMeasure (twiceFst μ) := Measure.isProbabilityMeasure_map mx.aemeasurable
  have _ : IsProbabilityMeasure (twiceSnd μ) := Measure.isProbabilityMeasure_map my.aemeasurable
  have hZ := exists_sample μ
  have hZx : Spec.Sample _ _ (twiceFst μ) := hZ.comp mx
  have hZy : Spec.Sample _ _ (twiceSnd μ) := hZ.comp my
  obtain ⟨ω, h1, h2, h3⟩ := ((Consistency.dcovSqr_law hα.le hZ (Consistency.moments_of_sq hα.le hx hy)).and
    ((Consistency.dcovSqr_law hα.le hZx (Consistency.moments_map hα.le measurable_fst measurable_fst hx hx)).and
    (Consistency.dcovSqr_law hα.le hZy
      (Consistency.moments_map hα.le measurable_snd measurable_snd hy hy)))).exists
  exact le_of_tendsto_of_tendsto' (h1.pow 2) (h2.mul h3) fun n => Spec.dcovSqr_cauchy _ _

end Distributions

/-! ### Limits -/

section Limits

variable {Z : ℕ → Ω → (Fin p → ℝ) × (Fin q → ℝ)} {μ : Measure ((Fin p → ℝ) × (Fin q → ℝ))} [IsProbabilityMeasure μ]

/-- C100: with probability one the covariances of the first `n` observations have a limit, which is zero exactly for
independent variables. -/
theorem C100_covariance (hα : 0 < α) (hα2 : α < 2) (hZ : Spec.Sample P Z μ) (hm : Spec.Moments α μ) :
    ∃ L, 0 ≤ L ∧ (L = 0 ↔ IndepFun Prod.fst Prod.snd μ) ∧
    ∀ᵐ ω ∂P, ∀ (x y : ℕ → Arr) (o : ℕ → Opts), (∀ n, (o n).exponent = α) →
      (∀ᶠ n in atTop, Supported env (x n) (y n) (o n) (fun i : Fin n => (Z i ω).1) (fun i : Fin n => (Z i ω).2)) →
      ReturnsTo atTop (fun n => (distanceCovarianceSqr env (x n) (y n) (o n)).out) L ∧
      ReturnsTo atTop (fun n => (uDistanceCovarianceSqr env (x n) (y n) (o n)).out) L ∧
      ReturnsTo atTop (fun n => (distanceCovariance env (x n) (y n) (o n)).out) (Real.sqrt L) :=
  ⟨_, C99_dcov_nonneg hα hα2.le hm, C100_dcov_zero hα hα2 hm, C99_covariance hα hZ hm⟩

/-- C100: with probability one the correlations of the first `n` observations of variables with more than one value have a
limit between zero and one, which is zero exactly for independent variables. -/
theorem C100_correlation (hα : 0 < α) (hα2 : α < 2) (hZ : Spec.Sample P Z μ)
    (hx : Integrable (fun z => Spec.dist α z.1 0 ^ 2) μ) (hy : Integrable (fun z => Spec.dist α z.2 0 ^ 2) μ)
    (hcx : ¬ ∃ c, ∀ᵐ z ∂μ, z.1 = c) (hcy : ¬ ∃ c, ∀ᵐ z ∂μ, z.2 = c) :
    ∃ L, 0 ≤ L ∧ L ≤ 1 ∧ (L = 0 ↔ IndepFun Prod.fst Prod.snd μ) ∧
    ∀ᵐ ω ∂P, ∀ (x y : ℕ → Arr) (o : ℕ → Opts), (∀ n, (o n).exponent = α) →
      (∀ᶠ n in atTop, Supported env (x n) (y n) (o n) (fun i : Fin n => (Z i ω).1) (fun i : Fin n => (Z i ω).2)) →
      ReturnsTo atTop (fun n => (distanceCorrelationSqr env (x n) (y n) (o n)).out) L ∧
      ReturnsTo atTop (fun n => (uDistanceCorrelationSqr env (x n) (y n) (o n)).out) L ∧
      ReturnsTo atTop (fun n => (distanceCorrelation env (x n) (y n) (o n)).out) (Real.sqrt L) := by
  have hm := Consistency.moments_of_sq hα.le hx hy
  have vx := variance_pos hα hα2 hx hcx
  have vy := variance_pos_snd hα hα2 hy hcy
  have hs := Real.sqrt_pos.2 (mul_pos vx vy)
  refine ⟨_, div_nonneg (C99_dcov_nonneg hα hα2.le hm) (Real.sqrt_nonneg _), ?_, ?_,
    C99_correlation hα hZ hx hy vx vy⟩
  · rw [div_le_one hs]
    exact Real.le_sqrt_of_sq_le (C100_cauchy hα hx hy)
  · rw [div_eq_zero_iff, or_iff_left hs.ne', C100_dcov_zero hα hα2 hm]

/-- C100: with probability one the energy distances of the first observations of two samples have a limit, which is zero
exactly for equal distributions. -/
theorem C100_energy_distance (hα : 0 < α) (hα2 : α < 2) {X Y : ℕ → Ω → Fin p → ℝ} {μ ν : Measure (Fin p → ℝ)}
    [IsProbabilityMeasure μ] [IsProbabilityMeasure ν] (hX : Spec.Sample P X μ) (hY : Spec.Sample P Y ν)
    (hμ : Integrable (fun x => Spec.dist α x 0) μ) (hν : Integrable (fun x => Spec.dist α x 0) ν) :
    ∃ L, 0 ≤ L ∧ (L = 0 ↔ μ = ν) ∧
    ∀ᵐ ω ∂P, ∀ (x y : ℕ × ℕ → Arr) (o : ℕ × ℕ → EnergyOpts) (s : EstStat), (∀ n, (o n).exponent = α) →
      (∀ n, (o n).stat.resolve env = .ok s) →
      (∀ᶠ n in atTop ×ˢ atTop, EnergyCall (x n) (y n) (o n) (fun i : Fin n.1 => X i ω) (fun i : Fin n.2 => Y i ω)) →
      ReturnsTo (atTop ×ˢ atTop) (fun n => (energyDistance env (x n) (y n) (o n)).out.map Scalar.val) L :=
  ⟨_, C99_energy_nonneg hα hα2.le hμ hν, C100_energy_zero hα hα2 hμ hν, C99_energy_distance hα hX hY hμ hν⟩

end Limits

/-! ### Permutation tests -/

section Tests

/-- C100: `distance_covariance_test` rejects, with probability one for large samples, whenever the variables are not
independent. -/
theorem C100_dcov_test (hα : 0 < α) (hα2 : α < 2) (hj : nJobs ≠ some 0) {Z : ℕ → Ω → (Fin p → ℝ) × (Fin q → ℝ)}
    {μ : Measure ((Fin p → ℝ) × (Fin q → ℝ))} [IsProbabilityMeasure μ] (hZ : Spec.Sample P Z μ) (hm : Spec.Moments α μ)
    (hdep : ¬ IndepFun Prod.fst Prod.snd μ) :
    ∀ᵐ ω ∂P, ∀ (x y : ℕ → Arr), (∀ᶠ n in atTop, DcovTestCall (x n) (y n) α (fun i : Fin n => (Z i ω).1)
        (fun i : Fin n => (Z i ω).2)) →
      Rejects (B := B) (fun n => n)
        (fun n σ => (distanceCovarianceTest env (Rng.replay σ) (x n) (y n) B α (.gen 0) nJobs).out) :=
  C99_dcov_test hα hα2.le hj hZ hm (lt_of_le_of_ne (C99_dcov_nonneg hα hα2.le hm) fun e =>
    hdep ((C100_dcov_zero hα hα2 hm).1 e.symm))

/-- C100: `energy_test` (V-statistics) of growing parts of `k` samples rejects, with probability one for large samples,
whenever the distributions are not all equal. -/
theorem C100_energy_test (hα : 0 < α) (hα2 : α < 2) (hj : nJobs ≠ some 0) {X : Fin k → ℕ → Ω → Fin p → ℝ}
    {ν : Fin k → Measure (Fin p → ℝ)} [∀ a, IsProbabilityMeasure (ν a)] (hX : ∀ a, Spec.Sample P (X a) (ν a))
    (hm : ∀ a, Integrable (fun x => Spec.dist α x 0) (ν a)) (hdiff : ∃ a b, ν a ≠ ν b) :
    ∀ᵐ ω ∂P, ∀ (sz : ℕ → Fin k → ℕ) (A : ℕ → Fin k → Arr) (o : ℕ → EnergyOpts),
      (∀ a, Tendsto (fun n => sz n a) atTop atTop) → (∀ n, (o n).exponent = α) →
      (∀ n, (o n).stat.resolve env = .ok .v) →
      (∀ᶠ n in atTop, EnergyTestCall (A n) (o n) fun a (i : Fin (sz n a)) => X a i ω) →
      Rejects (B := B) (fun n => ∑ a, sz n a)
        (fun n σ => (energyTest env (Rng.replay σ) (List.ofFn (A n)) B (o n) (.gen 0) nJobs).out) := by
  obtain ⟨a, b, hab⟩ := hdiff
  exact C99_energy_test hα hα2.le hj hX hm (a := a) (b := b) (lt_of_le_of_ne
    (C99_energy_nonneg hα hα2.le (hm a) (hm b)) fun e => hab ((C100_energy_zero hα hα2 (hm a) (hm b)).1 e.symm))

end Tests

/-! ### Warnings -/

/-- C100: if `distance_covariance_test` does not warn about the exponent, then the limit of the squared covariances with this
exponent is zero exactly for independent variables. -/
theorem C100_silent_dcov_test {n : ℕ} {x y : Arr} {X : Fin n → Fin p → ℝ} {Y : Fin n → Fin q → ℝ} {S : Type} {rng : Rng S}
    {rs : RandomLike S} (h : DcovTestCall x y α X Y) (hj : nJobs ≠ some 0)
    (hw : (distanceCovarianceTest env rng x y B α rs nJobs).warns = []) {p' q' : ℕ}
    {μ : Measure ((Fin p' → ℝ) × (Fin q' → ℝ))} [IsProbabilityMeasure μ] (hm : Spec.Moments α μ) :
    Spec.dcovPop α μ = 0 ↔ IndepFun Prod.fst Prod.snd μ := by
  rw [(C34_test_warns (z := x) (Z := X)).1 h B hj] at hw
  have hα : 0 < α ∧ α < 2 := by
    by_contra hn
    rw [if_neg hn] at hw
    exact absurd hw (by decide)
  exact C100_dcov_zero hα.1 hα.2 hm

/-- C100: if `energy_distance` does not warn about the exponent, then the limit of the energy distances with this exponent is
zero exactly for equal distributions. -/
theorem C100_silent_energy_distance {n m p₁ q₁ : ℕ} {x y : Arr} {X : Fin n → Fin p₁ → ℝ} {Y : Fin m → Fin q₁ → ℝ}
    {o : EnergyOpts} (hx : Holds x.data n p₁ X) (hy : Holds y.data m q₁ Y) (hw : (energyDistance env x y o).warns = [])
    {μ ν : Measure (Fin p → ℝ)} [IsProbabilityMeasure μ] [IsProbabilityMeasure ν]
    (hμ : Integrable (fun x => Spec.dist o.exponent x 0) μ) (hν : Integrable (fun x => Spec.dist o.exponent x 0) ν) :
    Spec.energyPop o.exponent μ ν = 0 ↔ μ = ν := by
  rw [C34_energy_warns hx hy] at hw
  have hα : 0 < o.exponent ∧ o.exponent < 2 := by
    by_contra hn
    rw [if_neg hn] at hw
    exact absurd hw (by decide)
  exact C100_energy_zero hα.1 hα.2 hμ hν

/-! ### Exponent two -/

/-- C100: with exponent two, for which `energy_distance` warns, different distributions with the same mean have the energy
distance zero. -/
theorem C100_exponent_two_energy : ∃ (μ ν : Measure (Fin 1 → ℝ)) (_ : IsProbabilityMeasure μ) (_ : IsProbabilityMeasure ν),
    Integrable (fun x => Spec.dist 2 x 0) μ ∧ Integrable (fun x => Spec.dist 2 x 0) ν ∧
      μ ≠ ν ∧ Spec.energyPop 2 μ ν = 0 := by
  refine ⟨fair ![-1] ![1], fair ![0] ![0], inferInstance, inferInstance, integrable_fair _ _ _, integrable_fair _ _ _, ?_,
    ?_⟩
  · intro e
    have h := (C100_energy_zero (α := 1) one_pos one_lt_two (μ := fair ![-1] ![1]) (ν := fair ![0] ![0])
      (integrable_fair _ _ _) (integrable_fair _ _ _)).2 e
    simp only [Spec.energyPop, integral_fair, dist_one] at h
    norm_num at h
  · simp only [Spec.energyPop, integral_fair, Spec.dist_two]
    norm_num

/-- The distribution with three values of the same probability. -/
noncomputable def three {S : Type} [MeasurableSpace S] (u v w : S) : Measure S :=
  (3 : ENNReal)⁻¹ • (Measure.dirac u + Measure.dirac v + Measure.dirac w)

section Three

variable {S : Type} [MeasurableSpace S] (u v w : S)

instance : IsProbabilityMeasure (three u v w) := by
  refine ⟨?_⟩
  simp only [three, Measure.smul_apply, Measure.add_apply, measure_univ, smul_eq_mul]
  rw [one_add_one_eq_two, two_add_one_eq_three]
  exact ENNReal.inv_mul_cancel (by norm_num) (by norm_num)

variable [MeasurableSingletonClass S]

theorem integrable_three (f : S → ℝ) : Integrable f (three u v w) :=
  (((integrable_dirac (by simp)).add_measure (integrable_dirac (by simp))).add_measure
    (integrable_dirac (by simp))).smul_measure (by simp)

theorem integral_three (f : S → ℝ) : ∫ x, f x ∂(three u v w) = (f u + f v + f w) / 3 := by
  rw [three, integral_smul_measure, integral_add_measure ((integrable_dirac (by simp)).add_measure
    (integrable_dirac (by simp))) (integrable_dirac (by simp)), integral_add_measure (integrable_dirac (by simp))
    (integrable_dirac (by simp)), integral_dirac, integral_dirac, integral_dirac]
  simp
  ring

end Three

/-- C100: with exponent two, for which `distance_covariance` warns, dependent variables without correlation have the distance
covariance zero. -/
theorem C100_exponent_two_dcov : ∃ (μ : Measure ((Fin 1 → ℝ) × (Fin 1 → ℝ))) (_ : IsProbabilityMeasure μ),
    Spec.Moments 2 μ ∧ ¬ IndepFun Prod.fst Prod.snd μ ∧ Spec.dcovPop 2 μ = 0 := by
  refine ⟨three (![-1], ![1]) (![1], ![1]) (![0], ![-2]), inferInstance, ⟨integrable_three _ _ _ _,
    integrable_three _ _ _ _, integrable_three _ _ _ _⟩, ?_, ?_⟩
  · intro e
    have h := (C100_dcov_zero (α := 1) one_pos one_lt_two (μ := three (![-1], ![1]) (![1], ![1]) (![0], ![-2]))
      ⟨integrable_three _ _ _ _, integrable_three _ _ _ _, integrable_three _ _ _ _⟩).2 e
    simp only [Spec.dcovPop, integral_three, dist_one] at h
    norm_num at h
  · simp only [Spec.dcovPop, integral_three, Spec.dist_two]
    norm_num

/-! ### Examples -/

/-- Two equal coins are not independent. -/
theorem coins_dep : ¬ IndepFun Prod.fst Prod.snd coins := by
  rw [← C100_dcov_zero one_pos one_lt_two coins_moments, dcovPop_coins]
  norm_num

theorem coin_ne : coin 1 ≠ coin 2 := by
  intro h
  have := (C100_energy_zero (α := 1) one_pos one_lt_two (μ := coin 1) (ν := coin 2) (integrable_fair _ _ _)
    (integrable_fair _ _ _)).2 h
  rw [energyPop_coin] at this
  norm_num at this

/-- Independent coins: the limit of the covariances is zero. -/
example : Spec.dcovPop 1 ((coin 1).prod (coin 1)) = 0 := by
  have i0 := integrable_fair (![0] : Fin 1 → ℝ) ![1] fun x => Spec.dist 1 x 0
  refine (C100_dcov_zero one_pos one_lt_two ⟨i0.comp_fst _, i0.comp_snd _, i0.mul_prod i0⟩).2 ?_
  exact indepFun_prod measurable_id measurable_id

/-- The uncorrelated variables of `C100_exponent_two_dcov`: the test with the default exponent finds the dependence. -/
example : ∀ᵐ ω ∂(Measure.infinitePi fun _ : ℕ => three ((![-1], ![1]) : (Fin 1 → ℝ) × (Fin 1 → ℝ)) (![1], ![1]) (![0], ![-2])),
    Rejects (B := B) (fun n => n) (fun n σ => (distanceCovarianceTest stdEnv (Rng.replay σ)
      (npMat fun i : Fin n => (ω i).1) (npMat fun i : Fin n => (ω i).2) B 1 (.gen 0) none).out) := by
  have hm : Spec.Moments 1 (three ((![-1], ![1]) : (Fin 1 → ℝ) × (Fin 1 → ℝ)) (![1], ![1]) (![0], ![-2])) :=
    ⟨integrable_three _ _ _ _, integrable_three _ _ _ _, integrable_three _ _ _ _⟩
  filter_upwards [C100_dcov_test (env := stdEnv) (nJobs := none) (B := B) one_pos one_lt_two (by simp)
    (exists_sample _) hm (by
      rw [← C100_dcov_zero one_pos one_lt_two hm]
      simp only [Spec.dcovPop, integral_three, dist_one]
      norm_num)] with ω h
  refine h _ _ ?_
  filter_upwards [eventually_gt_atTop 0] with n hn
  exact dcovTestCall_mat hn _ _ zero_le_one

example : ∃ a b : Fin 3, coin ((a : ℕ) + 1) ≠ coin ((b : ℕ) + 1) := by
  refine ⟨0, 1, ?_⟩
  have e0 : (((0 : Fin 3) : ℕ) : ℝ) + 1 = 1 := by norm_num
  have e1 : (((1 : Fin 3) : ℕ) : ℝ) + 1 = 2 := by norm_num
  rw [e0, e1]
  exact coin_ne

/-- Both coins have more than one value. -/
example : ∃ L, 0 ≤ L ∧ L ≤ 1 ∧ (L = 0 ↔ IndepFun Prod.fst Prod.snd coins) ∧
    ∀ᵐ ω ∂(Measure.infinitePi fun _ : ℕ => coins),
      ReturnsTo atTop (fun n => (distanceCorrelationSqr stdEnv (npMat fun i : Fin n => (ω i).1)
      (npMat fun i : Fin n => (ω i).2) ⟨1, .enum .naive, .auto⟩).out) L := by
  obtain ⟨L, h0, h1, h2, h3⟩ := C100_correlation (env := stdEnv) (α := 1) one_pos one_lt_two (exists_sample coins)
    (integrable_fair _ _ _) (integrable_fair _ _ _) (by
      rw [← C100_variance_zero one_pos one_lt_two (integrable_fair _ _ _), twice_coins.1, dcovPop_coins]
      norm_num) (by
      rw [← C100_variance_zero_snd one_pos one_lt_two (integrable_fair _ _ _), twice_coins.2, dcovPop_coins]
      norm_num)
  refine ⟨L, h0, h1, h2, ?_⟩
  filter_upwards [h3] with ω h
  exact (h _ _ (fun _ => ⟨1, .enum .naive, .auto⟩) (fun _ => rfl)
    (Eventually.of_forall fun n => supported_mat (fun i : Fin n => (ω i).1) (fun i : Fin n => (ω i).2) 1 zero_le_one)).1

example := C100_silent_dcov_test (env := stdEnv) (rng := shiftRng) (rs := .gen 0)
  (nJobs := none) (B := 5) (dcovTestCall_mat (by norm_num) exX exY (α := 1) (by norm_num)) (by simp)
  (by
    rw [(C34_test_warns (z := npMat exX) (Z := exX)).1 (dcovTestCall_mat (by norm_num) exX exY (α := 1) (by norm_num)) 5
      (by simp)]
    norm_num) coins_moments

example := C100_silent_energy_distance (env := stdEnv) (p := 1)
  (o := ⟨1, none, .enum .v⟩) (energyCall_mat exX exX (α := 1) (by norm_num) (.enum .v)).hx
  (energyCall_mat exX exX (α := 1) (by norm_num) (.enum .v)).hy
  (by
    rw [C34_energy_warns (energyCall_mat exX exX (α := 1) (by norm_num) (.enum .v)).hx
      (energyCall_mat exX exX (α := 1) (by norm_num) (.enum .v)).hy]
    norm_num) (μ := coin 1) (ν := coin 2) (integrable_fair _ _ _) (integrable_fair _ _ _)

end Dcor.Props

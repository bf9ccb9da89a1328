/-
Property C105: `partial_distance_covariance_test` is not a test of conditional independence.

The docstring says that the null hypothesis is that the first two vectors are independent given the third one. There are
distributions with this property for which the test rejects, and distributions without it for which the p-value is 1, with
a probability that tends to one. What holds is that the test is one of (conditional) independence if the third vector has one
value only.
-/
import Verif.Props.ConsistencyPartial
import Verif.Props.RandomLevel

namespace Dcor.Props

open Finset MeasureTheory ProbabilityTheory Filter Topology

variable {env : Env} {nJobs : Option ℤ} {B k p q r : ℕ} {α : ℝ}

/-- The distribution with the values `u i`, all of the same probability. -/
noncomputable def uniform {S : Type} [MeasurableSpace S] (u : Fin k → S) : Measure S :=
  (k : ENNReal)⁻¹ • ∑ i, Measure.dirac (u i)

section Uniform

variable {S S' : Type} [MeasurableSpace S] [MeasurableSpace S'] (u : Fin k → S)

theorem uniform_prob (hk : k ≠ 0) : IsProbabilityMeasure (uniform u) := by
  refine ⟨?_⟩
  simp only [uniform, Measure.smul_apply, Measure.finsetSum_apply, measure_univ, smul_eq_mul, sum_const, card_univ,
    Fintype.card_fin, nsmul_eq_mul, mul_one]
  exact ENNReal.inv_mul_cancel (by exact_mod_cast hk) (by simp)

theorem map_uniform {f : S → S'} (hf : Measurable f) : (uniform u).map f = uniform fun i => f (u i) := by
  rw [uniform, uniform, Measure.map_smul, Measure.map_finset_sum' hf.aemeasurable]
  simp only [Measure.map_dirac' hf]

variable [MeasurableSingletonClass S]

theorem integrable_uniform (hk : k ≠ 0) (f : S → ℝ) : Integrable f (uniform u) :=
  (integrable_finsetSum_measure.2 fun i _ => integrable_dirac (by simp)).smul_measure (by simpa using hk)

theorem integral_uniform (f : S → ℝ) : ∫ x, f x ∂(uniform u) = (∑ i, f (u i)) / k := by
  rw [uniform, integral_smul_measure, integral_finsetSum_measure fun i _ => integrable_dirac (by simp)]
  simp only [integral_dirac, ENNReal.toReal_inv, ENNReal.toReal_natCast, smul_eq_mul]
  ring

end Uniform

theorem covPop_uniform {S : Type} [MeasurableSpace S] (u : Fin k → S) {f : S → Fin p → ℝ} {g : S → Fin q → ℝ}
    (mf : Measurable f) (mg : Measurable g) : Spec.covPop α (uniform u) f g
      = (∑ i, (∑ j, Spec.dist α (f (u i)) (f (u j)) * Spec.dist α (g (u i)) (g (u j))) / k) / k
        + (∑ i, (∑ j, Spec.dist α (f (u i)) (f (u j))) / k) / k * ((∑ i, (∑ j, Spec.dist α (g (u i)) (g (u j))) / k) / k)
        - 2 * ((∑ i, (∑ j, Spec.dist α (f (u i)) (f (u j))) / k * ((∑ j, Spec.dist α (g (u i)) (g (u j))) / k)) / k) := by
  rw [Spec.covPop, map_uniform _ (mf.prodMk mg)]
  simp only [Spec.dcovPop, integral_uniform]

/-- Functions of `h` are independent given `h`. -/
theorem independentGiven_comp {S : Type*} [MeasurableSpace S] {μ : Measure S} [IsFiniteMeasure μ] {h : S → Fin r → ℝ}
    (mh : Measurable h) (φ : (Fin r → ℝ) → Fin p → ℝ) {g : S → Fin q → ℝ} :
    Spec.IndependentGiven μ (fun w => φ (h w)) g h := by
  intro c
  have mc : MeasurableSet (h ⁻¹' {c}) := mh (measurableSet_singleton c)
  rw [indepFun_iff_measure_inter_preimage_eq_mul]
  intro s t _ _
  by_cases h0 : μ (h ⁻¹' {c}) = 0
  · rw [cond_eq_zero_of_meas_eq_zero h0]
    simp
  have hp := cond_isProbabilityMeasure h0
  rw [cond_apply mc, cond_apply mc, cond_apply mc]
  by_cases hc : φ c ∈ s
  · have e1 : h ⁻¹' {c} ∩ (fun w => φ (h w)) ⁻¹' s = h ⁻¹' {c} := by
      ext w
      simp only [Set.mem_inter_iff, Set.mem_preimage, Set.mem_singleton_iff, and_iff_left_iff_imp]
      rintro rfl
      exact hc
    rw [← Set.inter_assoc, e1, ENNReal.inv_mul_cancel h0 (measure_ne_top _ _), one_mul]
  · have e1 : h ⁻¹' {c} ∩ (fun w => φ (h w)) ⁻¹' s = ∅ := by
      ext w
      simp only [Set.mem_inter_iff, Set.mem_preimage, Set.mem_singleton_iff, Set.mem_empty_iff_false, iff_false, not_and]
      rintro rfl
      exact hc
    rw [← Set.inter_assoc, e1]
    simp

theorem dist_line' (α : ℝ) (a b : ℝ) : Spec.dist α ![a] ![b] = |a - b| ^ α := by
  simp [Spec.dist, Real.sqrt_sq_eq_abs]

/-! ### Conditionally independent vectors -/

/-- The third vector: three values. -/
def lvlH : Fin 3 → Fin 1 → ℝ := ![![0], ![1], ![2]]

/-- The first and the second vector: whether the third one is 1. -/
noncomputable def lvlF : Fin 3 → Fin 1 → ℝ := ![![0], ![1], ![0]]

theorem lvl_pop (hα : 0 < α) : Spec.covPop α (uniform fun i : Fin 3 => i) lvlH lvlH ≠ 0 ∧
    0 < Spec.partialPop α (uniform fun i : Fin 3 => i) lvlF lvlF lvlH := by
  have mH : Measurable lvlH := Measurable.of_discrete
  have mF : Measurable lvlF := Measurable.of_discrete
  have h0 : (0 : ℝ) ^ α = 0 := Real.zero_rpow hα.ne'
  obtain ⟨d, hd⟩ : ∃ d : ℝ, d = 2 ^ α := ⟨_, rfl⟩
  have hd0 : 0 < d := by
    rw [hd]
    positivity
  have e1 : Spec.covPop α (uniform fun i : Fin 3 => i) lvlH lvlH = (16 - 8 * d + 10 * d ^ 2) / 81 := by
    rw [covPop_uniform _ mH mH]
    simp [Fin.sum_univ_succ, lvlH, dist_line', h0, ← hd]
    norm_num [← hd]
    ring
  have e2 : Spec.covPop α (uniform fun i : Fin 3 => i) lvlF lvlH = (16 - 4 * d) / 81 := by
    rw [covPop_uniform _ mF mH]
    simp [Fin.sum_univ_succ, lvlH, lvlF, dist_line', h0, ← hd]
    norm_num [← hd]
    ring
  have e3 : Spec.covPop α (uniform fun i : Fin 3 => i) lvlF lvlF = 16 / 81 := by
    rw [covPop_uniform _ mF mF]
    simp [Fin.sum_univ_succ, lvlF, dist_line', h0]
    norm_num
  have hpos : 0 < 16 - 8 * d + 10 * d ^ 2 := by nlinarith [sq_nonneg (d - 1)]
  refine ⟨by rw [e1]; positivity, ?_⟩
  rw [Spec.partialPop, if_neg (by rw [e1]; positivity), e1, e2, e3, sub_pos, div_lt_iff₀ (by positivity)]
  nlinarith [mul_pos hd0 hd0]

/-- C105: there are vectors that are independent given a third one for which `partial_distance_covariance_test` rejects: with
probability one the p-value of the first `n` observations is the smallest possible one with a probability that tends to
one. -/
theorem C105_independent_rejected (hα : 0 < α) (hj : nJobs ≠ some 0) :
    ∃ (μ : Measure (Fin 3)) (_ : IsProbabilityMeasure μ) (f g h : Fin 3 → Fin 1 → ℝ), Spec.IndependentGiven μ f g h ∧
      ∀ (Ω : Type) (_ : MeasurableSpace Ω) (P : Measure Ω) (W : ℕ → Ω → Fin 3), Spec.Sample P W μ →
      ∀ᵐ ω ∂P, ∀ x y z : ℕ → Arr,
        (∀ᶠ n in atTop, PartialTestCall (x n) (y n) (z n) α (fun i : Fin n => f (W i ω)) (fun i : Fin n => g (W i ω))
          (fun i : Fin n => h (W i ω))) →
        Rejects (B := B) (fun n => n)
          (fun n σ => (partialDistanceCovarianceTest env (Rng.replay σ) (x n) (y n) (z n) B α (.gen 0) nJobs).out) := by
  have hp := uniform_prob (fun i : Fin 3 => i) (by norm_num)
  refine ⟨uniform fun i : Fin 3 => i, hp, lvlF, lvlF, lvlH, ?_, fun Ω _ P W hW => ?_⟩
  · have e : lvlF = fun w => (fun v : Fin 1 → ℝ => if v = ![1] then ![1] else ![0]) (lvlH w) := by
      funext w
      fin_cases w <;> simp [lvlF, lvlH]
    have := independentGiven_comp (μ := uniform fun i : Fin 3 => i) (g := lvlF) (Measurable.of_discrete : Measurable lvlH)
      fun v => if v = ![1] then ![1] else ![0]
    rwa [← e] at this
  · exact C104_partial_test hα hj hW Measurable.of_discrete Measurable.of_discrete Measurable.of_discrete
      (integrable_uniform _ (by norm_num) _) (integrable_uniform _ (by norm_num) _) (integrable_uniform _ (by norm_num) _)
      (.inr (lvl_pop hα).1) (lvl_pop hα).2

/-! ### Conditionally dependent vectors -/

/-- Two coins. -/
noncomputable def powF : Fin 4 → Fin 1 → ℝ := ![![0], ![0], ![1], ![1]]
@[inherit_doc powF] noncomputable def powG : Fin 4 → Fin 1 → ℝ := ![![0], ![1], ![0], ![1]]

/-- Their sum. -/
noncomputable def powH : Fin 4 → Fin 1 → ℝ := ![![0], ![1], ![1], ![2]]

theorem pow_pop (hα : 0 < α) : Spec.covPop α (uniform fun i : Fin 4 => i) powH powH ≠ 0 ∧
    Spec.partialPop α (uniform fun i : Fin 4 => i) powF powG powH < 0 := by
  have mH : Measurable powH := Measurable.of_discrete
  have mF : Measurable powF := Measurable.of_discrete
  have mG : Measurable powG := Measurable.of_discrete
  have h0 : (0 : ℝ) ^ α = 0 := Real.zero_rpow hα.ne'
  obtain ⟨d, hd⟩ : ∃ d : ℝ, d = 2 ^ α := ⟨_, rfl⟩
  have hd0 : 0 < d := by
    rw [hd]
    positivity
  have e1 : Spec.covPop α (uniform fun i : Fin 4 => i) powH powH = (16 - 8 * d + 5 * d ^ 2) / 64 := by
    rw [covPop_uniform _ mH mH]
    simp [Fin.sum_univ_succ, powH, dist_line', h0, ← hd]
    norm_num [← hd]
    ring
  have e2 : Spec.covPop α (uniform fun i : Fin 4 => i) powF powH = d / 16 := by
    rw [covPop_uniform _ mF mH]
    simp [Fin.sum_univ_succ, powH, powF, dist_line', h0, ← hd]
    norm_num [← hd]
    ring
  have e3 : Spec.covPop α (uniform fun i : Fin 4 => i) powG powH = d / 16 := by
    rw [covPop_uniform _ mG mH]
    simp [Fin.sum_univ_succ, powH, powG, dist_line', h0, ← hd]
    norm_num [← hd]
    ring
  have e4 : Spec.covPop α (uniform fun i : Fin 4 => i) powF powG = 0 := by
    rw [covPop_uniform _ mF mG]
    simp [Fin.sum_univ_succ, powF, powG, dist_line', h0]
    norm_num
  have hpos : 0 < 16 - 8 * d + 5 * d ^ 2 := by nlinarith [sq_nonneg (d - 1)]
  refine ⟨by rw [e1]; positivity, ?_⟩
  rw [Spec.partialPop, if_neg (by rw [e1]; positivity), e1, e2, e3, e4, zero_sub, neg_lt_zero]
  positivity

theorem uniform_ne_zero {S : Type} [MeasurableSpace S] {u : Fin k → S} {A : Set S} (hA : MeasurableSet A) {i : Fin k}
    (hi : u i ∈ A) : uniform u A ≠ 0 := by
  rw [uniform, Measure.smul_apply, Measure.finsetSum_apply, smul_eq_mul]
  refine mul_ne_zero (by simp) ?_
  intro h
  have := (Finset.sum_eq_zero_iff.1 h) i (mem_univ _)
  rw [Measure.dirac_apply' _ hA] at this
  simp [hi] at this

theorem pow_dependent : ¬ Spec.IndependentGiven (uniform fun i : Fin 4 => i) powF powG powH := by
  intro h
  have hp := uniform_prob (fun i : Fin 4 => i) (by norm_num)
  have h1 := (indepFun_iff_measure_inter_preimage_eq_mul.1 (h ![1])) {![1]} {![1]} (measurableSet_singleton _)
    (measurableSet_singleton _)
  have mc : MeasurableSet (powH ⁻¹' {![1]}) := MeasurableSet.of_discrete
  rw [cond_apply mc, cond_apply mc, cond_apply mc] at h1
  have e : powH ⁻¹' {![1]} ∩ (powF ⁻¹' {![1]} ∩ powG ⁻¹' {![1]}) = ∅ := by
    ext w
    fin_cases w <;> simp [powH, powF, powG]
  rw [e, measure_empty, mul_zero] at h1
  have hi : ((uniform fun i : Fin 4 => i) (powH ⁻¹' {![1]}))⁻¹ ≠ 0 := by
    simp [measure_ne_top]
  exact mul_ne_zero (mul_ne_zero hi (uniform_ne_zero MeasurableSet.of_discrete (i := 2) (by simp [powH, powF])))
    (mul_ne_zero hi (uniform_ne_zero MeasurableSet.of_discrete (i := 1) (by simp [powH, powG]))) h1.symm

/-- C105: there are vectors that are not independent given a third one for which `partial_distance_covariance_test` does not
reject: with probability one the p-value of the first `n` observations is 1 with a probability that tends to one. -/
theorem C105_dependent_accepted (hα : 0 < α) (hj : nJobs ≠ some 0) :
    ∃ (μ : Measure (Fin 4)) (_ : IsProbabilityMeasure μ) (f g h : Fin 4 → Fin 1 → ℝ), ¬ Spec.IndependentGiven μ f g h ∧
      ∀ (Ω : Type) (_ : MeasurableSpace Ω) (P : Measure Ω) (W : ℕ → Ω → Fin 4), Spec.Sample P W μ →
      ∀ᵐ ω ∂P, ∀ x y z : ℕ → Arr,
        (∀ᶠ n in atTop, PartialTestCall (x n) (y n) (z n) α (fun i : Fin n => f (W i ω)) (fun i : Fin n => g (W i ω))
          (fun i : Fin n => h (W i ω))) →
        ∃ (T : ℕ → ℝ) (pv : (n : ℕ) → (Fin B → Equiv.Perm (Fin n)) → ℝ),
          (∀ᶠ n in atTop, ∀ σ, ∃ s, (partialDistanceCovarianceTest env (Rng.replay σ) (x n) (y n) (z n) B α (.gen 0)
            nJobs).out = .ok (⟨pv n σ, .fin (T n)⟩, s)) ∧
          Tendsto T atTop atBot ∧
          Tendsto (fun n => ((univ.filter fun σ => pv n σ = 1).card : ℝ) / n.factorial ^ B) atTop (𝓝 1) := by
  have hp := uniform_prob (fun i : Fin 4 => i) (by norm_num)
  refine ⟨uniform fun i : Fin 4 => i, hp, powF, powG, powH, pow_dependent, fun Ω _ P W hW => ?_⟩
  exact C104_partial_test_negative hα hj hW Measurable.of_discrete Measurable.of_discrete Measurable.of_discrete
    (integrable_uniform _ (by norm_num) _) (integrable_uniform _ (by norm_num) _) (integrable_uniform _ (by norm_num) _)
    (.inr (pow_pop hα).1) (pow_pop hα).2

/-! ### A constant third vector -/

/-- Independent vectors are independent given a constant. -/
theorem independentGiven_constant {S : Type*} [MeasurableSpace S] {μ : Measure S} [IsProbabilityMeasure μ]
    {f : S → Fin p → ℝ} {g : S → Fin q → ℝ} {h : S → Fin r → ℝ} (hc : ∃ c, ∀ᵐ w ∂μ, h w = c) :
    Spec.IndependentGiven μ f g h ↔ IndepFun f g μ := by
  obtain ⟨c, hc⟩ := hc
  have e : ProbabilityTheory.cond μ (h ⁻¹' {c}) = μ := by
    have h1 : μ (h ⁻¹' {c}) = 1 := by
      rw [measure_congr (t := Set.univ), measure_univ]
      filter_upwards [hc] with w hw
      exact propext ⟨fun _ => trivial, fun _ => hw⟩
    rw [ProbabilityTheory.cond, Measure.restrict_eq_self_of_ae_mem (by filter_upwards [hc] with w hw using hw), h1, inv_one,
      one_smul]
  constructor
  · intro hi
    have := hi c
    rwa [e] at this
  · intro hi d
    by_cases hd : d = c
    · rw [hd, e]
      exact hi
    · rw [cond_eq_zero_of_meas_eq_zero]
      · rw [indepFun_iff_measure_inter_preimage_eq_mul]
        simp
      · refine measure_mono_null ?_ hc
        intro w hw h1
        exact hd (hw.symm.trans h1)

/-- C105, what holds: if the third vector has one value only and the first two are not independent (given it), the test
rejects. -/
theorem C105_power_partial {Ω S : Type*} {mΩ : MeasurableSpace Ω} [MeasurableSpace S] {P : Measure Ω} {μ : Measure S}
    [IsProbabilityMeasure μ] {W : ℕ → Ω → S} {f : S → Fin p → ℝ} {g : S → Fin q → ℝ} {h : S → Fin r → ℝ}
    (hα : 0 < α) (hα2 : α < 2) (hj : nJobs ≠ some 0) (hW : Spec.Sample P W μ) (mf : Measurable f)
    (mg : Measurable g) (mh : Measurable h)
    (hf : Integrable (fun w => Spec.dist α (f w) 0 ^ 2) μ) (hg : Integrable (fun w => Spec.dist α (g w) 0 ^ 2) μ)
    (hc : ∃ c, ∀ᵐ w ∂μ, h w = c) (hdep : ¬ Spec.IndependentGiven μ f g h) :
    ∀ᵐ ω ∂P, ∀ x y z : ℕ → Arr,
      (∀ᶠ n in atTop, PartialTestCall (x n) (y n) (z n) α (fun i : Fin n => f (W i ω)) (fun i : Fin n => g (W i ω))
        (fun i : Fin n => h (W i ω))) →
      Rejects (B := B) (fun n => n)
        (fun n σ => (partialDistanceCovarianceTest env (Rng.replay σ) (x n) (y n) (z n) B α (.gen 0) nJobs).out) := by
  have hh : Integrable (fun w => Spec.dist α (h w) 0 ^ 2) μ := by
    obtain ⟨c, hc⟩ := hc
    refine (integrable_const (Spec.dist α c 0 ^ 2)).congr ?_
    filter_upwards [hc] with w hw
    rw [hw]
  have h0 : Spec.covPop α μ h h = 0 := by
    have m : Measurable fun w => (h w, h w) := mh.prodMk mh
    have _ : IsProbabilityMeasure (μ.map fun w => (h w, h w)) := Measure.isProbabilityMeasure_map m.aemeasurable
    refine (C100_dcov_zero hα hα2 (Consistency.moments_map hα.le mh mh hh hh)).2 ?_
    obtain ⟨c, hc⟩ := hc
    refine (indepFun_const_left c _).congr ?_ (ae_eq_refl _)
    rw [Filter.EventuallyEq, ae_map_iff m.aemeasurable (measurableSet_eq_fun measurable_const measurable_fst)]
    filter_upwards [hc] with w hw using hw.symm
  have hi : ¬ IndepFun f g μ := fun hi => hdep ((independentGiven_constant hc).2 hi)
  refine C104_partial_test hα hj hW mf mg mh hf hg hh (.inl hα2) ?_
  rw [Spec.partialPop, if_pos h0]
  have m : Measurable fun w => (f w, g w) := mf.prodMk mg
  have _ : IsProbabilityMeasure (μ.map fun w => (f w, g w)) := Measure.isProbabilityMeasure_map m.aemeasurable
  have hm := Consistency.moments_map hα.le mf mg hf hg
  refine lt_of_le_of_ne (C99_dcov_nonneg hα hα2.le hm) fun e => hi ?_
  have h1 := (C100_dcov_zero hα hα2 hm).1 e.symm
  rw [indepFun_iff_map_prod_eq_prod_map_map measurable_fst.aemeasurable measurable_snd.aemeasurable,
    Measure.map_map measurable_fst m, Measure.map_map measurable_snd m, Measure.map_map (by fun_prop) m] at h1
  rw [indepFun_iff_map_prod_eq_prod_map_map mf.aemeasurable mg.aemeasurable]
  exact h1

theorem measurable_uDcov {n : ℕ} (hα : 0 ≤ α) :
    Measurable fun d : Fin n → (Fin p → ℝ) × (Fin q → ℝ) =>
      (n : ℝ) * Spec.uDcovSqr (Spec.distMat α fun i => (d i).1) (Spec.distMat α fun i => (d i).2) := by
  have h1 (i j : Fin n) : Measurable fun d : Fin n → (Fin p → ℝ) × (Fin q → ℝ) => Spec.dist α (d i).1 (d j).1 := by
    have h := (Charac.dist_continuous hα).measurable.comp
      (by fun_prop : Measurable fun d : Fin n → (Fin p → ℝ) × (Fin q → ℝ) => ((d i).1, (d j).1))
    simp only [Function.comp_def] at h
    exact h
  have h2 (i j : Fin n) : Measurable fun d : Fin n → (Fin p → ℝ) × (Fin q → ℝ) => Spec.dist α (d i).2 (d j).2 := by
    have h := (Charac.dist_continuous hα).measurable.comp
      (by fun_prop : Measurable fun d : Fin n → (Fin p → ℝ) × (Fin q → ℝ) => ((d i).2, (d j).2))
    simp only [Function.comp_def] at h
    exact h
  have h3 (i j : Fin n) : Measurable fun d : Fin n → (Fin p → ℝ) × (Fin q → ℝ) =>
      Spec.uCentre (Spec.distMat α fun i => (d i).1) i j := by
    unfold Spec.uCentre Spec.distMat
    split_ifs
    · exact measurable_const
    · fun_prop
  have h4 (i j : Fin n) : Measurable fun d : Fin n → (Fin p → ℝ) × (Fin q → ℝ) =>
      Spec.uCentre (Spec.distMat α fun i => (d i).2) i j := by
    unfold Spec.uCentre Spec.distMat
    split_ifs
    · exact measurable_const
    · fun_prop
  unfold Spec.uDcovSqr Spec.uInner
  fun_prop

/-- C105, what holds: if the third vector has one value only and the first two are independent (given it), the level of the
test is that of `distance_covariance_test` (C102). -/
theorem C105_level_partial {Ω : Type*} {mΩ : MeasurableSpace Ω} {P : Measure Ω} [IsProbabilityMeasure P] {n : ℕ}
    {W : Fin n → Ω → (Fin p → ℝ) × (Fin q → ℝ)} {μ : Measure ((Fin p → ℝ) × (Fin q → ℝ))}
    [IsProbabilityMeasure μ] (hα : 0 < α) (hj : nJobs ≠ some 0) (hW : Spec.Observations P W μ)
    (hi : IndepFun Prod.fst Prod.snd μ) (c : Fin r → ℝ) :
    ∃ (T : Ω → Equiv.Perm (Fin n) → ℝ) (pv : Ω → (Fin B → Equiv.Perm (Fin n)) → ℝ),
      (∀ ω σ π x y z, PartialTestCall x y z α (fun i => (W (π i) ω).1) (fun i => (W i ω).2) (fun _ => c) →
        ∃ t s, (partialDistanceCovarianceTest env (Rng.replay σ) x y z B α (.gen 0) nJobs).out = .ok (t, s) ∧
          t.statistic = .fin (T ω π) ∧ (π = 1 → t.pvalue = pv ω σ)) ∧
      (∀ k : ℕ, 0 < k → k ≤ B →
        (k : ℝ) / (B + 1) < (∑ σ, P.real {ω | pv ω σ ≤ (k : ℝ) / (B + 1)}) / (n.factorial : ℝ) ^ B) ∧
      ∀ k : ℕ, (∑ σ, P.real {ω | pv ω σ ≤ (k : ℝ) / (B + 1)}) / (n.factorial : ℝ) ^ B
        ≤ (k : ℝ) / (B + 1)
          + (∑ σ : Fin B → Equiv.Perm (Fin n), P.real {ω | ∃ i, T ω (σ i) = T ω 1}) / (n.factorial : ℝ) ^ B := by
  have hl := RandomLevel.law_observations hW
  obtain ⟨act, hact⟩ : ∃ act : Equiv.Perm (Fin n) → (Fin n → (Fin p → ℝ) × (Fin q → ℝ)) →
      Fin n → (Fin p → ℝ) × (Fin q → ℝ), act = fun π d i => ((d (π i)).1, (d i).2) := ⟨_, rfl⟩
  obtain ⟨T, hT⟩ : ∃ T : (Fin n → (Fin p → ℝ) × (Fin q → ℝ)) → ℝ,
      T = fun d => n * Spec.uDcovSqr (Spec.distMat α fun i => (d i).1) (Spec.distMat α fun i => (d i).2) := ⟨_, rfl⟩
  have mT : Measurable T := hT ▸ measurable_uDcov hα.le
  have hinv (π : Equiv.Perm (Fin n)) : MeasurePreserving (act π) (Measure.pi fun _ => μ) (Measure.pi fun _ => μ) := by
    rw [hact]
    exact RandomLevel.permute_fst_preserving hi π
  have hmul (π σ : Equiv.Perm (Fin n)) (d) : act σ (act π d) = act (π * σ) d := by
    rw [hact]
    rfl
  have h1 (d : Fin n → (Fin p → ℝ) × (Fin q → ℝ)) : act 1 d = d := by
    rw [hact]
    rfl
  have key (k : ℕ) := RandomLevel.level (B := B) (k := k) mT hinv hmul
  have e1 (k : ℕ) (σ : Fin B → Equiv.Perm (Fin n)) :
      P.real {ω | RandomLevel.pvalue act T (fun i => W i ω) σ ≤ (k : ℝ) / (B + 1)}
        = (Measure.pi fun _ => μ).real {d | RandomLevel.pvalue act T d σ ≤ (k : ℝ) / (B + 1)} :=
    hl.measureReal_preimage (measurableSet_le (RandomLevel.measurable_pvalue mT (fun π => (hinv π).measurable) σ)
      measurable_const).nullMeasurableSet
  have e2 (σ : Fin B → Equiv.Perm (Fin n)) :
      P.real {ω | ∃ i, T (act (σ i) fun i => W i ω) = T (act 1 fun i => W i ω)}
        = (Measure.pi fun _ => μ).real {d | ∃ i, T (act (σ i) d) = T d} := by
    simp only [h1]
    exact hl.measureReal_preimage
      (RandomLevel.measurableSet_tie mT (fun π => (hinv π).measurable) σ).nullMeasurableSet
  have hres {d : ℕ} (X : Fin n → Fin d → ℝ) : Spec.residualMat α (fun _ => c) X = Spec.uCentre (Spec.distMat α X) := by
    have h0 := Consistency.uDcovSqr_constant (n := n) hα.ne' c fun _ => rfl
    rw [Spec.uDcovSqr] at h0
    rw [Spec.residualMat, Spec.uResidual, if_pos h0]
  refine ⟨fun ω π => T (act π fun i => W i ω), fun ω σ => RandomLevel.pvalue act T (fun i => W i ω) σ,
    fun ω σ π x y z hc => ?_, fun k hk hkB => ?_, fun k => ?_⟩
  · refine ⟨_, _, congrArg PyM.out (partialDistanceCovarianceTest_ok hc hj B), ?_, ?_⟩
    · rw [hT, hact, hres, hres]
      rfl
    · rintro rfl
      have h := RandomLevel.pvalue_eq (act := act) (T := T) (fun i => W i ω) σ (fun i => .fin (n * Spec.uInner
        (fun k l => Spec.uCentre (Spec.distMat α fun i => (W i ω).1) (permAt (Rng.replay σ) n 0 i k)
          (permAt (Rng.replay σ) n 0 i l)) (Spec.uCentre (Spec.distMat α fun i => (W i ω).2)))) fun i => by
          rw [permAt_replay, hT, hact]
          have h2 := Spec.uCentre_reorder (σ i) (Spec.distMat α fun i => (W i ω).1)
          beta_reduce
          rw [Spec.uDcovSqr]
          exact congrArg (fun a => FP.fin (n * Spec.uInner a (Spec.uCentre (Spec.distMat α fun i => (W i ω).2)))) h2.symm
      refine Eq.trans ?_ h.symm
      rw [hT, hres, hres]
      rfl
  · have h := (key k).1 hk hkB
    simp only [← e1, card_perm_fin] at h
    exact h
  · have h := (key k).2
    simp only [← e1, ← e2, card_perm_fin] at h
    exact h

/-! ### Examples -/

example := C105_independent_rejected (env := stdEnv) (nJobs := none) (B := 200) one_pos (by simp)
example := C105_dependent_accepted (env := stdEnv) (nJobs := none) (B := 200) one_pos (by simp)

/-- There are samples and calls as in C104 and C105. -/
example : ∀ᵐ ω ∂(Measure.infinitePi fun _ : ℕ => uniform fun i : Fin 3 => i),
    Rejects (B := B) (fun n => n) (fun n σ => (partialDistanceCovarianceTest stdEnv (Rng.replay σ)
      (npMat fun i : Fin n => lvlF (ω i)) (npMat fun i : Fin n => lvlF (ω i)) (npMat fun i : Fin n => lvlH (ω i)) B 1 (.gen 0)
      none).out) := by
  have hp := uniform_prob (fun i : Fin 3 => i) (by norm_num)
  filter_upwards [C104_partial_test (env := stdEnv) (nJobs := none) (B := B) (α := 1) one_pos (by simp)
    (exists_sample (uniform fun i : Fin 3 => i)) Measurable.of_discrete Measurable.of_discrete Measurable.of_discrete
    (integrable_uniform _ (by norm_num) _) (integrable_uniform _ (by norm_num) _) (integrable_uniform _ (by norm_num) _)
    (.inl one_lt_two) (lvl_pop one_pos).2] with ω h
  refine h _ _ _ ?_
  filter_upwards [eventually_gt_atTop 3] with n hn
  exact partialTestCall_mat hn _ _ _ zero_le_one

/-- The partial distance correlation of the same vectors tends to 1. -/
example : ∀ᵐ ω ∂(Measure.infinitePi fun _ : ℕ => uniform fun i : Fin 3 => i),
    ReturnsTo atTop (fun n => (partialDistanceCorrelation stdEnv (npMat fun i : Fin n => lvlF (ω i))
      (npMat fun i : Fin n => lvlF (ω i)) (npMat fun i : Fin n => lvlH (ω i))).out) 1 := by
  have hp := uniform_prob (fun i : Fin 3 => i) (by norm_num)
  have hpos := (lvl_pop one_pos).2
  filter_upwards [C104_partial_correlation (env := stdEnv)
    (exists_sample (uniform fun i : Fin 3 => i)) Measurable.of_discrete Measurable.of_discrete Measurable.of_discrete
    (integrable_uniform _ (by norm_num) _) (integrable_uniform _ (by norm_num) _) (integrable_uniform _ (by norm_num) _)
    hpos hpos] with ω h
  rw [Real.sqrt_mul_self hpos.le, div_self hpos.ne'] at h
  refine h _ _ _ ?_
  filter_upwards [eventually_gt_atTop 3] with n hn
  exact ⟨hn, npMat_holds _, npMat_holds _, npMat_holds _, Iff.rfl, Iff.rfl⟩

/-- Their partial distance covariance tends to its population value. -/
example : ∀ᵐ ω ∂(Measure.infinitePi fun _ : ℕ => uniform fun i : Fin 3 => i),
    ReturnsTo atTop (fun n => (partialDistanceCovariance stdEnv (npMat fun i : Fin n => lvlF (ω i))
      (npMat fun i : Fin n => lvlF (ω i)) (npMat fun i : Fin n => lvlH (ω i))).out)
      (Spec.partialPop 1 (uniform fun i : Fin 3 => i) lvlF lvlF lvlH) := by
  have hp := uniform_prob (fun i : Fin 3 => i) (by norm_num)
  filter_upwards [C104_partial_covariance (env := stdEnv)
    (exists_sample (uniform fun i : Fin 3 => i)) Measurable.of_discrete Measurable.of_discrete Measurable.of_discrete
    (integrable_uniform _ (by norm_num) _) (integrable_uniform _ (by norm_num) _) (integrable_uniform _ (by norm_num) _)] with ω h
  refine h _ _ _ ?_
  filter_upwards [eventually_gt_atTop 3] with n hn
  exact ⟨hn, npMat_holds _, npMat_holds _, npMat_holds _, Iff.rfl, Iff.rfl⟩

/-- Two equal coins and a constant. -/
example : ∀ᵐ ω ∂(Measure.infinitePi fun _ : ℕ => coins),
    Rejects (B := B) (fun n => n) (fun n σ => (partialDistanceCovarianceTest stdEnv (Rng.replay σ)
      (npMat fun i : Fin n => (ω i).1) (npMat fun i : Fin n => (ω i).2) (npMat fun _ : Fin n => ![7]) B 1 (.gen 0)
      none).out) := by
  filter_upwards [C105_power_partial (env := stdEnv) (nJobs := none) (B := B) (α := 1) (h := fun _ => ![7]) one_pos one_lt_two
    (by simp) (exists_sample coins) measurable_fst measurable_snd measurable_const (integrable_fair _ _ _)
    (integrable_fair _ _ _) ⟨![7], ae_of_all _ fun _ => rfl⟩ fun h => coins_dep
      ((independentGiven_constant ⟨![7], ae_of_all _ fun _ => rfl⟩).1 h)] with ω h
  refine h _ _ _ ?_
  filter_upwards [eventually_gt_atTop 3] with n hn
  exact partialTestCall_mat hn _ _ _ zero_le_one

/-- Five observations of two independent coins and a constant. -/
example : ∃ pv : (Fin 5 → (Fin 1 → ℝ) × (Fin 1 → ℝ)) → (Fin 19 → Equiv.Perm (Fin 5)) → ℝ,
    (∀ ω σ, ∃ r s, (partialDistanceCovarianceTest stdEnv (Rng.replay σ) (npMat fun i => (ω i).1) (npMat fun i => (ω i).2)
      (npMat fun _ : Fin 5 => ![7]) 19 1 (.gen 0) none).out = .ok (r, s) ∧ r.pvalue = pv ω σ) ∧
    1 / 20 < (∑ σ, (Measure.pi fun _ : Fin 5 => (coin 1).prod (coin 1)).real {ω | pv ω σ ≤ 1 / 20}) / 120 ^ 19 := by
  obtain ⟨T, pv, h1, h2, -⟩ := C105_level_partial (env := stdEnv) (nJobs := none) (B := 19) one_pos (by simp)
    (exists_observations ((coin 1).prod (coin 1)) 5) (indepFun_prod measurable_id measurable_id) ![7]
  refine ⟨pv, fun ω σ => ?_, ?_⟩
  · obtain ⟨r, s, h, -, h'⟩ := h1 ω σ 1 _ _ _ (partialTestCall_mat (by norm_num) _ _ _ zero_le_one)
    exact ⟨r, s, h, h' rfl⟩
  · have h := h2 1 one_pos (by norm_num)
    norm_num [Nat.factorial] at h ⊢
    exact h

end Dcor.Props

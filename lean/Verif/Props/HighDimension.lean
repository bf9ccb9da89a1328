/-
Property C108: the level of `distance_correlation_t_test` in high dimension.

"Test of independence for high dimension. It is based on convergence to a Student t distribution."
-/
import Verif.Proofs.HighDimension
import Verif.Props.TTestLimit

namespace Dcor.Props

open Finset MeasureTheory ProbabilityTheory Filter Topology

variable {env : Env} {n : ℕ}

/-! ### The levels of the t-distribution -/

theorem studentCdf_continuous {d : ℝ} (hd : 0 < d) : Continuous (Spec.studentCdf d) := by
  have hi := Student.integrable_weight hd
  have h : Spec.studentCdf d = fun t => 1 / 2 + (∫ s in (0 : ℝ)..t, Spec.studentWeight d s) / ∫ s, Spec.studentWeight d s := by
    funext t
    have h1 := intervalIntegral.integral_Iic_sub_Iic (a := 0) (b := t) hi.integrableOn hi.integrableOn
    have h0 := Student.cdf_zero hd
    unfold Spec.studentCdf at h0 ⊢
    rw [← h1, ← h0, ← add_div, add_sub_cancel]
  rw [h]
  exact continuous_const.add ((intervalIntegral.continuous_primitive (fun a b => hi.intervalIntegrable) 0).div_const _)

/-- Every level below 1/2 is the tail of the t-distribution at a positive number. -/
theorem exists_quantile {d α : ℝ} (hd : 1 ≤ d) (h0 : 0 < α) (h1 : α < 1 / 2) : ∃ τ, 0 < τ ∧ 1 - Spec.studentCdf d τ = α := by
  have hd0 : 0 < d := by linarith
  obtain ⟨T, hT⟩ : ∃ T : ℝ, T = Real.exp 1 / α := ⟨_, rfl⟩
  have hT0 : 0 < T := hT ▸ div_pos (Real.exp_pos 1) h0
  have hle : 1 - Spec.studentCdf d T ≤ α := by
    refine (Student.tail_le hd hT0).trans ?_
    rw [hT, div_div_cancel₀ (Real.exp_pos 1).ne']
  have hz := Student.cdf_zero hd0
  obtain ⟨τ, hτ, he⟩ := intermediate_value_Icc hT0.le (studentCdf_continuous hd0).continuousOn
    (show 1 - α ∈ Set.Icc (Spec.studentCdf d 0) (Spec.studentCdf d T) from ⟨by linarith, by linarith⟩)
  refine ⟨τ, lt_of_le_of_ne hτ.1 fun h => ?_, by linarith⟩
  rw [← h] at he
  linarith

/-! ### Standardised observations -/

variable {Ω : Type*} [MeasurableSpace Ω] {P : Measure Ω} [IsProbabilityMeasure P] {ν : Measure ℝ} [IsProbabilityMeasure ν]
  {x : ℕ → Ω → Fin n → ℝ}

theorem standardise (h4 : Integrable (fun t => t ^ 4) ν) (hv : Var[id; ν] ≠ 0) :
    HighDimension.Standard (ν.map fun t => (t - ∫ s, s ∂ν) / Real.sqrt Var[id; ν]) := by
  have hpow (k : ℕ) (hk : k ≤ 4) : Integrable (fun t => t ^ k) ν := by
    refine (h4.add (integrable_const (1 : ℝ))).mono' (by fun_prop) (ae_of_all _ fun t => ?_)
    rw [norm_pow, Real.norm_eq_abs]
    have h0 := abs_nonneg t
    have h4 : t ^ 4 = |t| ^ 4 := by rw [← abs_pow, abs_of_nonneg (by positivity)]
    simp only [Pi.add_apply, h4]
    rcases le_total |t| 1 with h | h
    · exact (pow_le_one₀ h0 h).trans (by linarith [pow_nonneg h0 4])
    · exact (pow_le_pow_right₀ h hk).trans (by linarith)
  have h1 : Integrable (fun t : ℝ => t) ν := by simpa using hpow 1 (by norm_num)
  have h2 := hpow 2 (by norm_num)
  have h3 := hpow 3 (by norm_num)
  have hpos : 0 < Var[id; ν] := lt_of_le_of_ne (variance_nonneg _ _) hv.symm
  have hs : 0 < Real.sqrt Var[id; ν] := Real.sqrt_pos.2 hpos
  have hsq := Real.sq_sqrt hpos.le
  have hvar : Var[id; ν] = ∫ t, (t - ∫ s, s ∂ν) ^ 2 ∂ν := by
    rw [variance_eq_integral aemeasurable_id]
    rfl
  generalize hσ : Real.sqrt Var[id; ν] = σ at hs hsq ⊢
  generalize hμ : ∫ s, s ∂ν = μ at hvar ⊢
  have m1 : Measurable fun t : ℝ => (t - μ) / σ := by fun_prop
  constructor
  · rw [integral_map m1.aemeasurable (by fun_prop), integral_div, integral_sub h1 (integrable_const μ), hμ]
    simp
  · rw [integral_map m1.aemeasurable (by fun_prop)]
    simp only [div_pow]
    rw [integral_div, ← hvar, hsq, div_self hv]
  · rw [integrable_map_measure (by fun_prop) m1.aemeasurable]
    have h5 : Integrable (fun t => (t ^ 4 - 4 * μ * t ^ 3 + 6 * μ ^ 2 * t ^ 2 - 4 * μ ^ 3 * t + μ ^ 4) / σ ^ 4) ν :=
      ((((h4.sub (h3.const_mul (4 * μ))).add (h2.const_mul (6 * μ ^ 2))).sub (h1.const_mul (4 * μ ^ 3))).add
        (integrable_const (μ ^ 4))).div_const _
    refine h5.congr (ae_of_all _ fun t => ?_)
    simp only [Function.comp_def, div_pow]
    ring

omit [IsProbabilityMeasure P] in
theorem coordinates_map (hx : Spec.Coordinates P x ν) {f : ℝ → ℝ} (hf : Measurable f) :
    Spec.Coordinates P (fun k ω i => f (x k ω i)) (ν.map f) := by
  have mx := hx.measurable
  refine ⟨fun k => by fun_prop, fun k => ?_, ?_⟩
  · have mf : Measurable fun (u : Fin n → ℝ) i => f (u i) := by fun_prop
    have : IsProbabilityMeasure (ν.map f) := Measure.isProbabilityMeasure_map hf.aemeasurable
    rw [← Measure.pi_map_pi (fun _ => hf.aemeasurable), ← hx.law k, Measure.map_map mf (mx k)]
    rfl
  · exact hx.indep.comp (fun _ u i => f (u i)) fun _ => by fun_prop

theorem distMat_affine {p : ℕ} {σ μ : ℝ} (hσ : 0 < σ) (X : Fin n → Fin p → ℝ) :
    Spec.distMat 1 X = σ • Spec.distMat 1 fun i k => (X i k - μ) / σ := by
  funext i j
  simp only [Pi.smul_apply, smul_eq_mul, Spec.distMat, Spec.dist, Real.rpow_one]
  have h (c : Fin p) : ((X i c - μ) / σ - (X j c - μ) / σ) ^ 2 = (X i c - X j c) ^ 2 / σ ^ 2 := by
    rw [← sub_div, div_pow, sub_sub_sub_cancel_right]
  simp only [h]
  rw [← Finset.sum_div, Real.sqrt_div' _ (sq_nonneg σ), Real.sqrt_sq hσ.le, mul_div_cancel₀ _ hσ.ne']

/-! ### The p-values -/

/-- The p-values for given data `Y` of any dimensions. -/
theorem pvalue_given (hn : 3 < n) (hx : Spec.Coordinates P x ν) (h4 : Integrable (fun t => t ^ 4) ν)
    (hv : Var[id; ν] ≠ 0) {b : ℕ → Fin n → Fin n → ℝ} (hb : ∀ p, Symm (b p)) (hb0 : ∀ p i, b p i i = 0)
    (hne : ∀ p, Spec.uDcovSqr (b p) (b p) ≠ 0) {α : ℝ} (hα : 0 < α) (hα' : α < 1 / 2) :
    Tendsto (fun p : ℕ => P.real {ω | tPvalue n (Spec.uDcorSqr (Spec.distMat 1 fun i (k : Fin p) => x k ω i) (b p)) ≤ α}) atTop
      (𝓝 α) := by
  obtain ⟨τ, hτ, he⟩ := exists_quantile (one_le_tDof hn) hα hα'
  have hpos : 0 < Var[id; ν] := lt_of_le_of_ne (variance_nonneg _ _) hv.symm
  have hs : 0 < Real.sqrt Var[id; ν] := Real.sqrt_pos.2 hpos
  have m1 : Measurable fun t : ℝ => (t - ∫ s, s ∂ν) / Real.sqrt Var[id; ν] := by fun_prop
  have : IsProbabilityMeasure (ν.map fun t => (t - ∫ s, s ∂ν) / Real.sqrt Var[id; ν]) :=
    Measure.isProbabilityMeasure_map m1.aemeasurable
  have h := HighDimension.correlation_tendsto hn (standardise h4 hv) (coordinates_map hx m1) hb hb0 hne hs hτ
  have h' := (ENNReal.tendsto_toReal ENNReal.ofReal_ne_top).comp h
  rw [he, ENNReal.toReal_ofReal hα.le] at h'
  refine h'.congr fun p => ?_
  simp only [Function.comp_apply, Measure.real]
  congr 2
  ext ω
  rw [Set.mem_ofPred_eq, Set.mem_ofPred_eq, ← he, tPvalue_le_iff hn (Spec.abs_uDcorSqr_le_one hn _ _) hτ,
    distMat_affine hs (μ := ∫ s, s ∂ν) fun i (k : Fin p) => x k ω i]

theorem half_lt_tPvalue_zero (hn : 3 < n) {α : ℝ} (hα : α < 1 / 2) : ¬ tPvalue n 0 ≤ α := by
  unfold tPvalue
  rw [if_neg (by norm_num), if_neg (by norm_num), zero_div, mul_zero, Student.cdf_zero (tDof_pos hn)]
  linarith

/-- Matrices of which some may have no U-centred part. -/
theorem pvalue_given_all (hn : 3 < n) (hx : Spec.Coordinates P x ν) (h4 : Integrable (fun t => t ^ 4) ν)
    (hv : Var[id; ν] ≠ 0) {b : ℕ → Fin n → Fin n → ℝ} (hb : ∀ p, Symm (b p)) (hb0 : ∀ p i, b p i i = 0)
    {α : ℝ} (hα : 0 < α) (hα' : α < 1 / 2) {e : ℕ → ℝ} (he : ∀ p, e p = if Spec.uDcovSqr (b p) (b p) = 0 then 0 else α) :
    Tendsto (fun p : ℕ => P.real {ω | tPvalue n (Spec.uDcorSqr (Spec.distMat 1 fun i (k : Fin p) => x k ω i) (b p)) ≤ α}
      - e p) atTop (𝓝 0) := by
  have hz (p : ℕ) (h : Spec.uDcovSqr (b p) (b p) = 0) :
      P.real {ω | tPvalue n (Spec.uDcorSqr (Spec.distMat 1 fun i (k : Fin p) => x k ω i) (b p)) ≤ α} - e p = 0 := by
    rw [he, if_pos h, sub_zero]
    have hr (ω : Ω) : Spec.uDcorSqr (Spec.distMat 1 fun i (k : Fin p) => x k ω i) (b p) = 0 := by
      rw [Spec.uDcorSqr, Spec.ratio, h, mul_zero, if_pos rfl]
    simp only [hr, half_lt_tPvalue_zero hn hα']
    simp
  by_cases hex : ∃ p₀, Spec.uDcovSqr (b p₀) (b p₀) ≠ 0
  · obtain ⟨p₀, h0⟩ := hex
    obtain ⟨b', hb'⟩ : ∃ b' : ℕ → Fin n → Fin n → ℝ, b' = fun p => if Spec.uDcovSqr (b p) (b p) = 0 then b p₀ else b p :=
      ⟨_, rfl⟩
    have hsel (p : ℕ) : ∃ p', b' p = b p' ∧ Spec.uDcovSqr (b p') (b p') ≠ 0 := by
      by_cases h : Spec.uDcovSqr (b p) (b p) = 0
      · exact ⟨p₀, by rw [hb']; exact if_pos h, h0⟩
      · exact ⟨p, by rw [hb']; exact if_neg h, h⟩
    have ht := pvalue_given hn hx h4 hv (b := b') (fun p => by obtain ⟨p', h, -⟩ := hsel p; rw [h]; exact hb p')
      (fun p => by obtain ⟨p', h, -⟩ := hsel p; rw [h]; exact hb0 p')
      (fun p => by obtain ⟨p', h, h'⟩ := hsel p; rw [h]; exact h') hα hα'
    have ht' := (ht.sub_const α).abs
    rw [sub_self, abs_zero] at ht'
    refine squeeze_zero_norm (fun p => ?_) ht'
    rw [Real.norm_eq_abs]
    by_cases h : Spec.uDcovSqr (b p) (b p) = 0
    · rw [hz p h, abs_zero]
      exact abs_nonneg _
    · rw [he, if_neg h, hb']
      simp only [if_neg h]
      exact le_rfl
  · push Not at hex
    simp only [fun p => hz p (hex p)]
    exact tendsto_const_nhds

theorem measurable_tPvalue (n : ℕ) (hn : 3 < n) : Measurable (tPvalue n) := by
  have := (studentCdf_continuous (tDof_pos hn)).measurable
  unfold tPvalue
  refine Measurable.ite (measurableSet_singleton 1) measurable_const
    (Measurable.ite (measurableSet_singleton (-1)) measurable_const (measurable_const.sub (this.comp ?_)))
  fun_prop

/-- The set of the data with a p-value of at most `α`. -/
theorem measurableSet_small (hn : 3 < n) (p q : ℕ) (α : ℝ) :
    MeasurableSet {d : (Fin n → Fin p → ℝ) × (Fin n → Fin q → ℝ) |
      tPvalue n (Spec.uDcorSqr (Spec.distMat 1 d.1) (Spec.distMat 1 d.2)) ≤ α} := by
  have h := (measurable_tPvalue n hn).comp ((measurable_uDcor (n := n) (p := p) (q := q)).comp
    (by fun_prop : Measurable fun (d : (Fin n → Fin p → ℝ) × (Fin n → Fin q → ℝ)) i => (d.1 i, d.2 i)))
  simp only [Function.comp_def] at h
  exact measurableSet_le h measurable_const

theorem measurable_uVar (n q : ℕ) :
    Measurable fun Y : Fin n → Fin q → ℝ => Spec.uDcovSqr (Spec.distMat 1 Y) (Spec.distMat 1 Y) := by
  have h := (measurable_uDcov_data (n := n) (p := q) (q := q)).comp
    (by fun_prop : Measurable fun (Y : Fin n → Fin q → ℝ) i => (Y i, Y i))
  simp only [Function.comp_def] at h
  exact h

open Classical in
/-- C108: let the `n` observations of the first variable have independent coordinates with the same distribution with a fourth
moment, and let the second variable be any data that are independent of the first. As the dimension of the first variable grows,
the probability of a p-value of at most `α` approaches `α` times the probability that the bias-corrected distance variance of the
second variable does not vanish. The second variable may have any dimensions and its observations may be dependent, and the two
variables may be exchanged. -/
theorem C108_calibrated (hn : 3 < n) (hx : Spec.Coordinates P x ν) (h4 : Integrable (fun t => t ^ 4) ν)
    (hv : Var[id; ν] ≠ 0) {q : ℕ → ℕ} {Y : (p : ℕ) → Ω → Fin n → Fin (q p) → ℝ} (mY : ∀ p, Measurable (Y p))
    (hI : ∀ p, IndepFun (fun ω i (k : Fin p) => x k ω i) (Y p) P) :
    ∃ a : ℕ → Ω → ℝ,
      (∀ p ω u v, Supported env u v {} (fun i (k : Fin p) => x k ω i) (Y p ω) → u.dtype ≠ .decimal → v.dtype ≠ .decimal →
        ∃ t, (distanceCorrelationTTest env studentT u v).out = .ok (.fin (a p ω), t)) ∧
      (∀ p ω u v, Supported env v u {} (Y p ω) (fun i (k : Fin p) => x k ω i) → u.dtype ≠ .decimal → v.dtype ≠ .decimal →
        ∃ t, (distanceCorrelationTTest env studentT v u).out = .ok (.fin (a p ω), t)) ∧
      ∀ α : ℝ, 0 < α → α < 1 / 2 → Tendsto (fun p => P.real {ω | a p ω ≤ α}
        - α * P.real {ω | Spec.uDcovSqr (Spec.distMat 1 (Y p ω)) (Spec.distMat 1 (Y p ω)) ≠ 0}) atTop (𝓝 0) := by
  refine ⟨fun p ω => tPvalue n (Spec.uDcorSqr (Spec.distMat 1 fun i (k : Fin p) => x k ω i) (Spec.distMat 1 (Y p ω))),
    fun p ω u v h h1 h2 => ⟨_, tTest_value h hn h1 h2⟩, fun p ω u v h h1 h2 => ?_, fun α hα hα' => ?_⟩
  · beta_reduce
    rw [Spec.uDcorSqr_comm]
    exact ⟨_, tTest_value h hn h2 h1⟩
  have mx := hx.measurable
  have mX (p : ℕ) : Measurable fun ω i (k : Fin p) => x k ω i := by fun_prop
  obtain ⟨f, hf⟩ : ∃ f : (p : ℕ) → (Fin n → Fin (q p) → ℝ) → ℝ, f = fun p y =>
    P.real {ω | tPvalue n (Spec.uDcorSqr (Spec.distMat 1 fun i (k : Fin p) => x k ω i) (Spec.distMat 1 y)) ≤ α} := ⟨_, rfl⟩
  obtain ⟨e, he⟩ : ∃ e : ℕ → Ω → ℝ, e = fun p ω =>
    if Spec.uDcovSqr (Spec.distMat 1 (Y p ω)) (Spec.distMat 1 (Y p ω)) = 0 then 0 else α := ⟨_, rfl⟩
  have hfm (p : ℕ) : Measurable (f p) := by
    have h := measurable_measure_prodMk_right (μ := P.map fun ω i (k : Fin p) => x k ω i) (measurableSet_small hn p (q p) α)
    have h' : f p = fun y => ((P.map fun ω i (k : Fin p) => x k ω i) ((fun d => (d, y)) ⁻¹'
        {d : (Fin n → Fin p → ℝ) × (Fin n → Fin (q p) → ℝ) |
          tPvalue n (Spec.uDcorSqr (Spec.distMat 1 d.1) (Spec.distMat 1 d.2)) ≤ α})).toReal := by
      funext y
      rw [Measure.map_apply (mX p) ((measurableSet_small hn p (q p) α).preimage (by fun_prop)), hf]
      rfl
    rw [h']
    exact h.ennreal_toReal
  have hem (p : ℕ) : Measurable (e p) := by
    rw [he]
    exact Measurable.ite (measurableSet_eq_fun ((measurable_uVar n (q p)).comp (mY p)) measurable_const) measurable_const
      measurable_const
  have hP (p : ℕ) : P.real {ω | tPvalue n (Spec.uDcorSqr (Spec.distMat 1 fun i (k : Fin p) => x k ω i)
      (Spec.distMat 1 (Y p ω))) ≤ α} = ∫ ω, f p (Y p ω) ∂P := by
    have h1 := (indepFun_iff_map_prod_eq_prod_map_map (mX p).aemeasurable (mY p).aemeasurable).1 (hI p)
    have h2 : P {ω | tPvalue n (Spec.uDcorSqr (Spec.distMat 1 fun i (k : Fin p) => x k ω i) (Spec.distMat 1 (Y p ω))) ≤ α}
        = ∫⁻ ω, ENNReal.ofReal (f p (Y p ω)) ∂P := by
      have h3 : P {ω | tPvalue n (Spec.uDcorSqr (Spec.distMat 1 fun i (k : Fin p) => x k ω i) (Spec.distMat 1 (Y p ω))) ≤ α}
          = P.map (fun ω => ((fun i (k : Fin p) => x k ω i), Y p ω))
            {d | tPvalue n (Spec.uDcorSqr (Spec.distMat 1 d.1) (Spec.distMat 1 d.2)) ≤ α} := by
        rw [Measure.map_apply ((mX p).prodMk (mY p)) (measurableSet_small hn p (q p) α)]
        rfl
      have := Measure.isProbabilityMeasure_map (mX p).aemeasurable (μ := P)
      have := Measure.isProbabilityMeasure_map (mY p).aemeasurable (μ := P)
      rw [h3, h1, Measure.prod_apply_symm (measurableSet_small hn p (q p) α),
        lintegral_map (measurable_measure_prodMk_right (measurableSet_small hn p (q p) α)) (mY p)]
      refine lintegral_congr fun ω => ?_
      rw [Measure.map_apply (mX p) ((measurableSet_small hn p (q p) α).preimage (by fun_prop)), hf]
      beta_reduce
      rw [Measure.real, ENNReal.ofReal_toReal (measure_ne_top _ _)]
      rfl
    have h4 : Measurable fun ω => f p (Y p ω) := (hfm p).comp (mY p)
    rw [Measure.real, h2, integral_eq_lintegral_of_nonneg_ae (ae_of_all _ fun ω => by rw [hf]; exact measureReal_nonneg)
      h4.aestronglyMeasurable]
  have hE (p : ℕ) : α * P.real {ω | Spec.uDcovSqr (Spec.distMat 1 (Y p ω)) (Spec.distMat 1 (Y p ω)) ≠ 0} = ∫ ω, e p ω ∂P := by
    have mS : MeasurableSet {ω | Spec.uDcovSqr (Spec.distMat 1 (Y p ω)) (Spec.distMat 1 (Y p ω)) ≠ 0} :=
      (measurableSet_eq_fun ((measurable_uVar n (q p)).comp (mY p)) measurable_const).compl
    have h1 : e p = Set.indicator {ω | Spec.uDcovSqr (Spec.distMat 1 (Y p ω)) (Spec.distMat 1 (Y p ω)) ≠ 0} fun _ => α := by
      funext ω
      rw [he]
      by_cases h : Spec.uDcovSqr (Spec.distMat 1 (Y p ω)) (Spec.distMat 1 (Y p ω)) = 0
      · simp [h]
      · simp [h]
    rw [h1, integral_indicator_const _ mS, smul_eq_mul, mul_comm]
  have hf01 (p : ℕ) (y) : 0 ≤ f p y ∧ f p y ≤ 1 := by
    rw [hf]
    exact ⟨measureReal_nonneg, measureReal_le_one⟩
  have he01 (p : ℕ) (ω) : 0 ≤ e p ω ∧ e p ω ≤ 1 := by
    rw [he]
    beta_reduce
    split_ifs
    · exact ⟨le_rfl, zero_le_one⟩
    · exact ⟨hα.le, by linarith⟩
  have hfi (p : ℕ) : Integrable (fun ω => f p (Y p ω)) P :=
    Integrable.of_bound ((hfm p).comp (mY p)).aestronglyMeasurable 1 (ae_of_all _ fun ω => by
      rw [Real.norm_eq_abs, abs_of_nonneg (hf01 p _).1]
      exact (hf01 p _).2)
  have hei (p : ℕ) : Integrable (e p) P :=
    Integrable.of_bound (hem p).aestronglyMeasurable 1 (ae_of_all _ fun ω => by
      rw [Real.norm_eq_abs, abs_of_nonneg (he01 p _).1]
      exact (he01 p _).2)
  simp only [hP, hE, ← integral_sub (hfi _) (hei _)]
  rw [show (0 : ℝ) = ∫ _ : Ω, (0 : ℝ) ∂P by simp]
  refine tendsto_integral_of_dominated_convergence (fun _ => 1) (fun p => ((hfi p).sub (hei p)).aestronglyMeasurable)
    (integrable_const 1) (fun p => ae_of_all _ fun ω => ?_) (ae_of_all _ fun ω => ?_)
  · rw [Real.norm_eq_abs, abs_le]
    constructor <;> linarith [(hf01 p (Y p ω)).1, (hf01 p (Y p ω)).2, (he01 p ω).1, (he01 p ω).2]
  · rw [hf]
    exact pvalue_given_all hn hx h4 hv (b := fun p => Spec.distMat 1 (Y p ω)) (fun p => Spec.distMat_symm 1 _)
      (fun p => Spec.distMat_diag one_ne_zero _) hα hα' fun p => by rw [he]

/-- C108: if the bias-corrected distance variance of the second variable almost surely does not vanish, the probability of a
p-value of at most `α` tends to `α`. -/
theorem C108_level (hn : 3 < n) (hx : Spec.Coordinates P x ν) (h4 : Integrable (fun t => t ^ 4) ν)
    (hv : Var[id; ν] ≠ 0) {q : ℕ → ℕ} {Y : (p : ℕ) → Ω → Fin n → Fin (q p) → ℝ} (mY : ∀ p, Measurable (Y p))
    (hI : ∀ p, IndepFun (fun ω i (k : Fin p) => x k ω i) (Y p) P)
    (hY : ∀ p, ∀ᵐ ω ∂P, Spec.uDcovSqr (Spec.distMat 1 (Y p ω)) (Spec.distMat 1 (Y p ω)) ≠ 0) :
    ∃ a : ℕ → Ω → ℝ,
      (∀ p ω u v, Supported env u v {} (fun i (k : Fin p) => x k ω i) (Y p ω) → u.dtype ≠ .decimal → v.dtype ≠ .decimal →
        ∃ t, (distanceCorrelationTTest env studentT u v).out = .ok (.fin (a p ω), t)) ∧
      (∀ p ω u v, Supported env v u {} (Y p ω) (fun i (k : Fin p) => x k ω i) → u.dtype ≠ .decimal → v.dtype ≠ .decimal →
        ∃ t, (distanceCorrelationTTest env studentT v u).out = .ok (.fin (a p ω), t)) ∧
      ∀ α : ℝ, 0 < α → α < 1 / 2 → Tendsto (fun p => P.real {ω | a p ω ≤ α}) atTop (𝓝 α) := by
  obtain ⟨a, h1, h2, h3⟩ := C108_calibrated (env := env) hn hx h4 hv mY hI
  refine ⟨a, h1, h2, fun α hα hα' => ?_⟩
  have h := (h3 α hα hα').add_const α
  rw [zero_add] at h
  refine h.congr fun p => ?_
  have h5 : P.real {ω | Spec.uDcovSqr (Spec.distMat 1 (Y p ω)) (Spec.distMat 1 (Y p ω)) ≠ 0} = 1 := by
    rw [Measure.real, measure_congr (eventuallyEq_univ.2 (hY p)), measure_univ, ENNReal.toReal_one]
  rw [h5]
  ring

/-- C108: the test has its nominal level in high dimension, whatever the second variable is. -/
theorem C108_valid (hn : 3 < n) (hx : Spec.Coordinates P x ν) (h4 : Integrable (fun t => t ^ 4) ν)
    (hv : Var[id; ν] ≠ 0) {q : ℕ → ℕ} {Y : (p : ℕ) → Ω → Fin n → Fin (q p) → ℝ} (mY : ∀ p, Measurable (Y p))
    (hI : ∀ p, IndepFun (fun ω i (k : Fin p) => x k ω i) (Y p) P) :
    ∃ a : ℕ → Ω → ℝ,
      (∀ p ω u v, Supported env u v {} (fun i (k : Fin p) => x k ω i) (Y p ω) → u.dtype ≠ .decimal → v.dtype ≠ .decimal →
        ∃ t, (distanceCorrelationTTest env studentT u v).out = .ok (.fin (a p ω), t)) ∧
      (∀ p ω u v, Supported env v u {} (Y p ω) (fun i (k : Fin p) => x k ω i) → u.dtype ≠ .decimal → v.dtype ≠ .decimal →
        ∃ t, (distanceCorrelationTTest env studentT v u).out = .ok (.fin (a p ω), t)) ∧
      ∀ α ε : ℝ, 0 < α → α < 1 / 2 → 0 < ε → ∀ᶠ p in atTop, P.real {ω | a p ω ≤ α} ≤ α + ε := by
  obtain ⟨a, h1, h2, h3⟩ := C108_calibrated (env := env) hn hx h4 hv mY hI
  refine ⟨a, h1, h2, fun α ε hα hα' hε => ?_⟩
  filter_upwards [(h3 α hα hα').eventually_lt_const hε] with p hp
  have h5 := measureReal_le_one (μ := P) (s := {ω | Spec.uDcovSqr (Spec.distMat 1 (Y p ω)) (Spec.distMat 1 (Y p ω)) ≠ 0})
  nlinarith

/-! ### Normal variables -/

/-- Two multivariate samples are supported with the default arguments. -/
theorem supported_default {p q : ℕ} (hp : p ≠ 1) (X : Fin n → Fin p → ℝ) (Y : Fin n → Fin q → ℝ) :
    Supported stdEnv (npMat X) (npMat Y) {} X Y := by
  refine ⟨npMat_holds X, npMat_holds Y, .auto, rfl, ?_⟩
  simp only [CallOk]
  rw [if_neg fun h => hp h.2.1]
  exact ⟨Or.inl rfl, fun h => by simp [npMat] at h, zero_le_one, Iff.rfl⟩

theorem exists_coordinates (ν : Measure ℝ) [IsProbabilityMeasure ν] (n : ℕ) :
    Spec.Coordinates (Measure.infinitePi fun _ : ℕ => Measure.pi fun _ : Fin n => ν) (fun k ω => ω k) ν where
  measurable k := measurable_pi_apply k
  law k := (measurePreserving_eval_infinitePi (fun _ : ℕ => Measure.pi fun _ : Fin n => ν) k).map_eq
  indep := iIndepFun_infinitePi (P := fun _ : ℕ => Measure.pi fun _ : Fin n => ν) (X := fun _ ω => ω) fun _ => measurable_id

omit [IsProbabilityMeasure P] [IsProbabilityMeasure ν] in
/-- The coordinates on a product space. -/
theorem coordinates_fst {Ω' : Type*} [MeasurableSpace Ω'] {Q : Measure Ω'} [IsProbabilityMeasure Q] [SFinite P]
    (hx : Spec.Coordinates P x ν) : Spec.Coordinates (P.prod Q) (fun k ω => x k ω.1) ν := by
  have mx := hx.measurable
  have hfst (A : Set Ω) : P.prod Q (Prod.fst ⁻¹' A) = P A := by
    rw [← Set.prod_univ, Measure.prod_prod, measure_univ, mul_one]
  refine ⟨fun k => by fun_prop, fun k => ?_, ?_⟩
  · rw [← hx.law k]
    ext A hA
    rw [Measure.map_apply (by fun_prop) hA, Measure.map_apply (mx k) hA, ← hfst]
    rfl
  · rw [iIndepFun_iff_measure_inter_preimage_eq_mul]
    intro S sets hsets
    have h := (iIndepFun_iff_measure_inter_preimage_eq_mul.1 hx.indep) S hsets
    have h1 (k : ℕ) : (fun ω : Ω × Ω' => x k ω.1) ⁻¹' sets k = Prod.fst ⁻¹' (x k ⁻¹' sets k) := rfl
    simp only [h1, hfst, ← h, ← Set.preimage_iInter]

theorem normal_fourth : Integrable (fun t => t ^ 4) (gaussianReal 0 1) := by
  have h := (memLp_id_gaussianReal' (μ := 0) (v := 1) 4 (by norm_num)).integrable_norm_pow (by norm_num)
  refine h.congr (ae_of_all _ fun t => ?_)
  simp only [id, Real.norm_eq_abs]
  exact Even.pow_abs (by decide) t

theorem normal_variance : Var[id; gaussianReal 0 1] ≠ 0 := by
  rw [variance_id_gaussianReal]
  norm_num

/-- Five observations of two independent vectors of `p` independent normal variables each. -/
example : ∃ a : ℕ → (ℕ → Fin 5 → ℝ) × (ℕ → Fin 5 → ℝ) → ℝ,
    (∀ p ω, p ≠ 1 → ∃ t, (distanceCorrelationTTest stdEnv studentT (npMat fun i (k : Fin p) => ω.1 k i)
      (npMat fun i (k : Fin p) => ω.2 k i)).out = .ok (.fin (a p ω), t)) ∧
    ∀ ε : ℝ, 0 < ε → ∀ᶠ p in atTop, ((Measure.infinitePi fun _ : ℕ => Measure.pi fun _ : Fin 5 => gaussianReal 0 1).prod
      (Measure.infinitePi fun _ : ℕ => Measure.pi fun _ : Fin 5 => gaussianReal 0 1)).real {ω | a p ω ≤ 1 / 20}
        ≤ 1 / 20 + ε := by
  have hx := exists_coordinates (gaussianReal 0 1) 5
  have hx' := coordinates_fst hx (Q := Measure.infinitePi fun _ : ℕ => Measure.pi fun _ : Fin 5 => gaussianReal 0 1)
  obtain ⟨a, h1, -, h2⟩ := C108_valid (env := stdEnv) (by norm_num) hx' normal_fourth normal_variance
    (q := fun p => p) (Y := fun p ω i k => ω.2 k i) (fun p => by fun_prop) fun p =>
      indepFun_prod (X := fun (ω : ℕ → Fin 5 → ℝ) i (k : Fin p) => ω k i) (Y := fun (ω : ℕ → Fin 5 → ℝ) i (k : Fin p) => ω k i)
        (by fun_prop) (by fun_prop)
  exact ⟨a, fun p ω hp => h1 p ω _ _ (supported_default hp _ _) (by simp [npMat]) (by simp [npMat]),
    fun ε hε => h2 (1 / 20) ε (by norm_num) (by norm_num) hε⟩

/-- Two groups of two observations. -/
def twoGroups : Fin 4 → Fin 1 → ℝ := fun i _ => if i = 0 ∨ i = 1 then 0 else 1

theorem twoGroups_var : Spec.uDcovSqr (Spec.distMat 1 twoGroups) (Spec.distMat 1 twoGroups) ≠ 0 := by
  rw [Spec.uDcovSqr_eq_uIp, Ne, uIp_self_eq_zero (by norm_num)]
  intro h
  have h1 := congrFun (congrFun h 0) 1
  have hd (i j : Fin 4) : Spec.distMat 1 twoGroups i j = |twoGroups i 0 - twoGroups j 0| := by
    rw [Spec.distMat, Spec.dist, Real.rpow_one, Fin.sum_univ_one, Real.sqrt_sq_eq_abs]
  simp [Spec.uCentre, hd, Fin.sum_univ_four, twoGroups] at h1
  norm_num at h1

/-- Four observations of a vector of `p` independent normal variables in two given groups. -/
example : ∃ a : ℕ → (ℕ → Fin 4 → ℝ) → ℝ,
    (∀ p ω, p ≠ 1 → ∃ t, (distanceCorrelationTTest stdEnv studentT (npMat fun i (k : Fin p) => ω k i)
      (npMat twoGroups)).out = .ok (.fin (a p ω), t)) ∧
    Tendsto (fun p => (Measure.infinitePi fun _ : ℕ => Measure.pi fun _ : Fin 4 => gaussianReal 0 1).real {ω | a p ω ≤ 1 / 20})
      atTop (𝓝 (1 / 20)) := by
  obtain ⟨a, h1, -, h2⟩ := C108_level (env := stdEnv) (by norm_num) (exists_coordinates (gaussianReal 0 1) 4) normal_fourth
    normal_variance (q := fun _ => 1) (Y := fun _ _ => twoGroups) (fun p => measurable_const) (fun p => indepFun_const_right _ _)
    fun p => ae_of_all _ fun _ => twoGroups_var
  exact ⟨a, fun p ω hp => h1 p ω _ _ (supported_default hp _ _) (by simp [npMat]) (by simp [npMat]),
    h2 (1 / 20) (by norm_num) (by norm_num)⟩

example := C108_calibrated (env := stdEnv) (by norm_num) (exists_coordinates (gaussianReal 0 1) 4) normal_fourth
    normal_variance (q := fun _ => 1) (Y := fun _ _ => twoGroups) (fun _ => measurable_const) (fun _ => indepFun_const_right _ _)

end Dcor.Props

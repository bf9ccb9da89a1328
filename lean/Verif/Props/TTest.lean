/-
Property C106: `distance_correlation_t_test` with Student's t-distribution.

`studentT` is the t-distribution itself; C43 is about any family of distribution functions.
-/
import Verif.Proofs.Student
import Verif.Props.Characterization
import Verif.Props.Independence
import Verif.Props.PermVariance
import Verif.Props.RandomLevel

namespace Dcor.Props

open Finset MeasureTheory ProbabilityTheory Filter Topology

variable {env : Env} {n p q : ℕ} {x y : Arr} {X : Fin n → Fin p → ℝ} {Y : Fin n → Fin q → ℝ}

open Classical in
/-- The p-value as a function of the bias-corrected correlation. -/
noncomputable def tPvalue (n : ℕ) (r : ℝ) : ℝ :=
  if r = 1 then 0 else if r = -1 then 1
  else 1 - Spec.studentCdf ((n : ℝ) * ((n : ℝ) - 3) / 2 - 1) (tScale n * (r / Real.sqrt (1 - r ^ 2)))

theorem tTest_value (h : Supported env x y {} X Y) (hn : 3 < n) (hx : x.dtype ≠ .decimal) (hy : y.dtype ≠ .decimal) :
    (distanceCorrelationTTest env studentT x y).out
      = .ok (.fin (tPvalue n (Spec.uDcorSqr (Spec.distMat 1 X) (Spec.distMat 1 Y))),
        tStatistic n (.fin (Spec.uDcorSqr (Spec.distMat 1 X) (Spec.distMat 1 Y)))) := by
  have h1 := uDistanceCorrelationSqr_ok h hn one_ne_zero
  have hr := Spec.abs_uDcorSqr_le_one hn (Spec.distMat 1 X) (Spec.distMat 1 Y)
  have h2 : (distanceCorrelationTStatistic env x y).out
      = .ok (tStatistic n (.fin (Spec.uDcorSqr (Spec.distMat 1 X) (Spec.distMat 1 Y)))) := by
    unfold distanceCorrelationTStatistic
    rw [PyM.bind_ok h1, if_neg (by tauto), h.1.shape0]
    rfl
  obtain ⟨r, hr'⟩ : ∃ r, r = Spec.uDcorSqr (Spec.distMat 1 X) (Spec.distMat 1 Y) := ⟨_, rfl⟩
  rw [← hr'] at h2 hr ⊢
  unfold distanceCorrelationTTest
  rw [PyM.bind_ok h2, h.1.shape0]
  refine congrArg (fun a => Except.ok (a, tStatistic n (.fin r))) ?_
  unfold StudentT.pvalue tPvalue
  rw [if_neg (not_le.2 (tDof_pos hn))]
  by_cases h3 : r = 1
  · rw [h3, tStatistic_one hn, if_pos rfl]
  by_cases h4 : r = -1
  · rw [h4, tStatistic_neg_one hn, if_neg (by norm_num), if_pos rfl]
  rw [if_neg h3, if_neg h4, tStatistic_inner hn]
  · rfl
  · refine lt_of_le_of_ne hr fun e => ?_
    rcases (abs_eq zero_le_one).1 e with e | e
    · exact h3 e
    · exact h4 e

theorem tPvalue_neg (hn : 3 < n) (r : ℝ) : tPvalue n (-r) = 1 - tPvalue n r := by
  unfold tPvalue
  by_cases h1 : r = 1
  · rw [h1, if_neg (by norm_num), if_pos rfl, if_pos rfl, sub_zero]
  by_cases h2 : r = -1
  · rw [h2, if_pos (by norm_num), if_neg (by norm_num), if_pos rfl, sub_self]
  rw [if_neg h1, if_neg h2, if_neg fun h => h2 (by linarith), if_neg fun h => h1 (by linarith), neg_sq, neg_div, mul_neg,
    Student.cdf_neg (tDof_pos hn)]

theorem one_sub_sq_pos {r : ℝ} (hr : |r| ≤ 1) (h1 : r ≠ 1) (h2 : r ≠ -1) : 0 < 1 - r ^ 2 := by
  have h := lt_of_le_of_ne hr fun e => ((abs_eq zero_le_one).1 e).elim h1 h2
  have := (sq_lt_one_iff_abs_lt_one r).2 h
  linarith

theorem tPvalue_lt_half (hn : 3 < n) {r : ℝ} (hr : |r| ≤ 1) (h0 : 0 < r) : tPvalue n r < 1 / 2 := by
  unfold tPvalue
  by_cases h1 : r = 1
  · rw [if_pos h1]
    norm_num
  · have h2 : r ≠ -1 := by linarith
    rw [if_neg h1, if_neg h2]
    have h3 := Student.cdf_strictMono (tDof_pos hn) (a := 0) (b := tScale n * (r / Real.sqrt (1 - r ^ 2)))
      (mul_pos (tScale_pos hn) (div_pos h0 (Real.sqrt_pos.2 (one_sub_sq_pos hr h1 h2))))
    rw [Student.cdf_zero (tDof_pos hn)] at h3
    linarith

/-- C106: the p-value is less than 1/2 for a positive correlation, 1/2 for the correlation zero and more than 1/2 for a negative
one. -/
theorem C106_half (h : Supported env x y {} X Y) (hn : 3 < n) (hx : x.dtype ≠ .decimal) (hy : y.dtype ≠ .decimal) :
    ∃ r a t, (uDistanceCorrelationSqr env x y {}).out = .ok (.fin r) ∧
      (distanceCorrelationTTest env studentT x y).out = .ok (.fin a, t) ∧
      (a < 1 / 2 ↔ 0 < r) ∧ (a = 1 / 2 ↔ r = 0) ∧ (1 / 2 < a ↔ r < 0) := by
  obtain ⟨r, hr⟩ : ∃ r, r = Spec.uDcorSqr (Spec.distMat 1 X) (Spec.distMat 1 Y) := ⟨_, rfl⟩
  have hle := Spec.abs_uDcorSqr_le_one hn (Spec.distMat 1 X) (Spec.distMat 1 Y)
  have h1 := uDistanceCorrelationSqr_ok h hn one_ne_zero
  have h2 := tTest_value h hn hx hy
  rw [← hr] at h2 hle
  refine ⟨r, _, _, by rw [hr]; exact h1, h2, ?_⟩
  have hneg (s : ℝ) (hs : |s| ≤ 1) (h0 : s < 0) : 1 / 2 < tPvalue n s := by
    have h3 := tPvalue_lt_half hn (r := -s) (by rwa [abs_neg]) (by linarith)
    rw [tPvalue_neg hn] at h3
    linarith
  have hzero : tPvalue n 0 = 1 / 2 := by
    have h3 := tPvalue_neg hn 0
    rw [neg_zero] at h3
    linarith
  rcases lt_trichotomy r 0 with h0 | h0 | h0
  · have := hneg r hle h0
    exact ⟨⟨fun e => by linarith, fun e => by linarith⟩, ⟨fun e => by linarith, fun e => by linarith⟩,
      ⟨fun _ => h0, fun _ => this⟩⟩
  · rw [h0, hzero]
    simp
  · have := tPvalue_lt_half hn hle h0
    exact ⟨⟨fun _ => h0, fun _ => this⟩, ⟨fun e => by linarith, fun e => by linarith⟩,
      ⟨fun e => by linarith, fun e => by linarith⟩⟩

/-- C106: calls with opposite correlations have p-values that add to one. -/
theorem C106_opposite {p' q' : ℕ} {x' y' : Arr} {X' : Fin n → Fin p' → ℝ} {Y' : Fin n → Fin q' → ℝ}
    (h : Supported env x y {} X Y) (h' : Supported env x' y' {} X' Y') (hn : 3 < n) (hx : x.dtype ≠ .decimal)
    (hy : y.dtype ≠ .decimal) (hx' : x'.dtype ≠ .decimal) (hy' : y'.dtype ≠ .decimal) :
    ∃ r r' a a' t t', (uDistanceCorrelationSqr env x y {}).out = .ok (.fin r) ∧
      (uDistanceCorrelationSqr env x' y' {}).out = .ok (.fin r') ∧
      (distanceCorrelationTTest env studentT x y).out = .ok (.fin a, t) ∧
      (distanceCorrelationTTest env studentT x' y').out = .ok (.fin a', t') ∧ (r' = -r → a' = 1 - a) := by
  refine ⟨_, _, _, _, _, _, uDistanceCorrelationSqr_ok h hn one_ne_zero, uDistanceCorrelationSqr_ok h' hn one_ne_zero,
    tTest_value h hn hx hy, tTest_value h' hn hx' hy', fun e => ?_⟩
  exact (congrArg (tPvalue n) e).trans (tPvalue_neg hn _)

/-! ### Consistency -/

theorem tPvalue_nonneg (hn : 3 < n) (r : ℝ) : 0 ≤ tPvalue n r := by
  unfold tPvalue
  split_ifs
  · exact le_rfl
  · exact zero_le_one
  · have := Student.cdf_lt_one (tDof_pos hn) (tScale n * (r / Real.sqrt (1 - r ^ 2)))
    linarith

theorem le_div_sqrt {r : ℝ} (hr : |r| ≤ 1) (h1 : r ≠ 1) (h0 : 0 < r) : r ≤ r / Real.sqrt (1 - r ^ 2) := by
  have hs := Real.sqrt_pos.2 (one_sub_sq_pos hr h1 (by linarith))
  rw [le_div_iff₀ hs]
  have : Real.sqrt (1 - r ^ 2) ≤ 1 := Real.sqrt_le_one.2 (by nlinarith)
  nlinarith

theorem one_le_tDof (hn : 3 < n) : (1 : ℝ) ≤ (n : ℝ) * ((n : ℝ) - 3) / 2 - 1 := by
  have : (4 : ℝ) ≤ n := by exact_mod_cast hn
  nlinarith

theorem tPvalue_le (hn : 3 < n) {r : ℝ} (hr : |r| ≤ 1) (h0 : 0 < r) : tPvalue n r ≤ Real.exp 1 / (tScale n * r) := by
  have hs := tScale_pos hn
  unfold tPvalue
  by_cases h1 : r = 1
  · rw [if_pos h1]
    positivity
  · rw [if_neg h1, if_neg (by linarith)]
    have h2 : tScale n * r ≤ tScale n * (r / Real.sqrt (1 - r ^ 2)) :=
      mul_le_mul_of_nonneg_left (le_div_sqrt hr h1 h0) hs.le
    refine (Student.tail_le (one_le_tDof hn) (lt_of_lt_of_le (by positivity) h2)).trans ?_
    exact div_le_div_of_nonneg_left (Real.exp_pos 1).le (by positivity) h2

theorem tScale_tendsto : Tendsto tScale atTop atTop := by
  refine Real.tendsto_sqrt_atTop.comp ?_
  refine tendsto_atTop_add_const_right _ (-1) (Tendsto.atTop_div_const two_pos ?_)
  exact tendsto_natCast_atTop_atTop.atTop_mul_atTop₀ (tendsto_atTop_add_const_right _ (-3) tendsto_natCast_atTop_atTop)

/-- C106: for variables that are not independent, with probability one the statistic of the first `n` observations tends to
infinity and the p-value to zero. -/
theorem C106_consistent {Ω : Type*} {mΩ : MeasurableSpace Ω} {P : Measure Ω} {Z : ℕ → Ω → (Fin p → ℝ) × (Fin q → ℝ)}
    {μ : Measure ((Fin p → ℝ) × (Fin q → ℝ))} [IsProbabilityMeasure μ] (hZ : Spec.Sample P Z μ)
    (hx : Integrable (fun z => Spec.dist 1 z.1 0 ^ 2) μ) (hy : Integrable (fun z => Spec.dist 1 z.2 0 ^ 2) μ)
    (hdep : ¬ IndepFun Prod.fst Prod.snd μ) :
    ∀ᵐ ω ∂P, ∀ x y : ℕ → Arr,
      (∀ᶠ n in atTop, Supported env (x n) (y n) {} (fun i : Fin n => (Z i ω).1) (fun i : Fin n => (Z i ω).2) ∧
        (x n).dtype ≠ .decimal ∧ (y n).dtype ≠ .decimal) →
      ∃ (a : ℕ → ℝ) (t : ℕ → FP ℝ),
        (∀ᶠ n in atTop, (distanceCorrelationTTest env studentT (x n) (y n)).out = .ok (.fin (a n), t n)) ∧
        Tendsto a atTop (𝓝 0) ∧ ∀ M : ℝ, ∀ᶠ n in atTop, FP.lt (.fin M) (t n) := by
  have hcx : ¬ ∃ c, ∀ᵐ z ∂μ, z.1 = c := fun ⟨c, hc⟩ =>
    hdep ((indepFun_const_left c _).congr (hc.mono fun z h => h.symm) (ae_eq_refl _))
  have hcy : ¬ ∃ c, ∀ᵐ z ∂μ, z.2 = c := fun ⟨c, hc⟩ =>
    hdep ((indepFun_const_right _ c).congr (ae_eq_refl _) (hc.mono fun z h => h.symm))
  obtain ⟨L, hL0, -, hL, hconv⟩ := C100_correlation (env := env) one_pos one_lt_two hZ hx hy hcx hcy
  have hLpos : 0 < L := lt_of_le_of_ne hL0 fun e => hdep (hL.1 e.symm)
  filter_upwards [hconv] with ω h
  intro x y hs
  obtain ⟨r, hr⟩ : ∃ r : ℕ → ℝ, r = fun n => Spec.uDcorSqr (Spec.distMat 1 fun i : Fin n => (Z i ω).1)
    (Spec.distMat 1 fun i : Fin n => (Z i ω).2) := ⟨_, rfl⟩
  have hlim : Tendsto r atTop (𝓝 L) := by
    obtain ⟨v, hv, hvL⟩ := (h x y (fun _ => {}) (fun _ => rfl) (hs.mono fun n h => h.1)).2.1
    refine hvL.congr' ?_
    filter_upwards [hv, hs, eventually_gt_atTop 3] with n h1 h2 hn
    rw [uDistanceCorrelationSqr_ok h2.1 hn one_ne_zero] at h1
    rw [hr]
    exact (FP.fin.inj (Except.ok.inj h1)).symm
  have hev : ∀ᶠ n in atTop, 3 < n ∧ L / 2 < r n ∧ |r n| ≤ 1 := by
    filter_upwards [eventually_gt_atTop 3, hlim.eventually_const_lt (show L / 2 < L by linarith)] with n hn h1
    refine ⟨hn, h1, ?_⟩
    rw [hr]
    exact Spec.abs_uDcorSqr_le_one hn _ _
  refine ⟨fun n => tPvalue n (r n), fun n => tStatistic n (.fin (r n)), ?_, ?_, fun M => ?_⟩
  · filter_upwards [hs, eventually_gt_atTop 3] with n h1 hn
    rw [tTest_value h1.1 hn h1.2.1 h1.2.2, hr]
  · have hup : Tendsto (fun n => Real.exp 1 / (tScale n * (L / 2))) atTop (𝓝 0) :=
      tendsto_const_nhds.div_atTop (tScale_tendsto.atTop_mul_const (by linarith))
    refine tendsto_of_tendsto_of_tendsto_of_le_of_le' tendsto_const_nhds hup ?_ ?_
    · filter_upwards [eventually_gt_atTop 3] with n hn
      exact tPvalue_nonneg hn _
    · filter_upwards [hev] with n ⟨hn, h1, h2⟩
      have hs := tScale_pos hn
      refine (tPvalue_le hn h2 (by linarith)).trans ?_
      exact div_le_div_of_nonneg_left (Real.exp_pos 1).le (by positivity) (mul_le_mul_of_nonneg_left h1.le hs.le)
  · filter_upwards [hev, (tScale_tendsto.atTop_mul_const (show 0 < L / 2 by linarith)).eventually_gt_atTop M]
      with n ⟨hn, h1, h2⟩ h3
    by_cases h4 : r n = 1
    · rw [h4, tStatistic_one hn]
      trivial
    · have h0 : 0 < r n := by linarith
      rw [tStatistic_inner hn (lt_of_le_of_ne h2 fun e => by
        rw [abs_of_pos h0] at e
        exact h4 e)]
      show M < _
      have h5 := mul_le_mul_of_nonneg_left (h1.le.trans (le_div_sqrt h2 h4 h0)) (tScale_pos hn).le
      linarith

/-! ### Level -/

theorem le_of_tPvalue_le (hn : 3 < n) {r τ : ℝ} (hr : |r| ≤ 1) (hτ : 0 < τ)
    (h : tPvalue n r ≤ 1 - Spec.studentCdf ((n : ℝ) * ((n : ℝ) - 3) / 2 - 1) τ) :
    τ / Real.sqrt ((n : ℝ) * ((n : ℝ) - 3) / 2 - 1 + τ ^ 2) ≤ r := by
  have hd := tDof_pos hn
  have hs : 0 < Real.sqrt ((n : ℝ) * ((n : ℝ) - 3) / 2 - 1 + τ ^ 2) := Real.sqrt_pos.2 (by positivity)
  rw [div_le_iff₀ hs]
  unfold tPvalue at h
  by_cases h1 : r = 1
  · rw [h1, one_mul]
    refine Real.le_sqrt_of_sq_le ?_
    linarith
  by_cases h2 : r = -1
  · rw [if_neg h1, if_pos h2] at h
    have := Student.cdf_pos hd τ
    linarith
  rw [if_neg h1, if_neg h2] at h
  have h3 : τ ≤ tScale n * (r / Real.sqrt (1 - r ^ 2)) :=
    (Student.cdf_strictMono hd).le_iff_le.1 (by linarith)
  have hq := one_sub_sq_pos hr h1 h2
  have hq' := Real.sqrt_pos.2 hq
  rw [← mul_div_assoc, le_div_iff₀ hq'] at h3
  have hr0 : 0 < r := by
    by_contra hc
    have h4 : 0 < τ * Real.sqrt (1 - r ^ 2) := by positivity
    have h5 : tScale n * r ≤ 0 := mul_nonpos_of_nonneg_of_nonpos (tScale_pos hn).le (not_lt.1 hc)
    linarith
  rw [← Real.sqrt_sq hr0.le, ← Real.sqrt_mul (sq_nonneg r)]
  refine Real.le_sqrt_of_sq_le ?_
  have h6 := pow_le_pow_left₀ (by positivity) h3 2
  rw [mul_pow, mul_pow, Real.sq_sqrt hq.le, tScale, Real.sq_sqrt hd.le] at h6
  nlinarith

theorem measurable_uDcor {n : ℕ} :
    Measurable fun d : Fin n → (Fin p → ℝ) × (Fin q → ℝ) =>
      Spec.uDcorSqr (Spec.distMat 1 fun i => (d i).1) (Spec.distMat 1 fun i => (d i).2) := by
  have h1 (i j : Fin n) : Measurable fun d : Fin n → (Fin p → ℝ) × (Fin q → ℝ) => Spec.dist 1 (d i).1 (d j).1 := by
    have h := (Charac.dist_continuous zero_le_one).measurable.comp
      (by fun_prop : Measurable fun d : Fin n → (Fin p → ℝ) × (Fin q → ℝ) => ((d i).1, (d j).1))
    simp only [Function.comp_def] at h
    exact h
  have h2 (i j : Fin n) : Measurable fun d : Fin n → (Fin p → ℝ) × (Fin q → ℝ) => Spec.dist 1 (d i).2 (d j).2 := by
    have h := (Charac.dist_continuous zero_le_one).measurable.comp
      (by fun_prop : Measurable fun d : Fin n → (Fin p → ℝ) × (Fin q → ℝ) => ((d i).2, (d j).2))
    simp only [Function.comp_def] at h
    exact h
  have h3 (i j : Fin n) : Measurable fun d : Fin n → (Fin p → ℝ) × (Fin q → ℝ) =>
      Spec.uCentre (Spec.distMat 1 fun i => (d i).1) i j := by
    unfold Spec.uCentre Spec.distMat
    split_ifs
    · exact measurable_const
    · fun_prop
  have h4 (i j : Fin n) : Measurable fun d : Fin n → (Fin p → ℝ) × (Fin q → ℝ) =>
      Spec.uCentre (Spec.distMat 1 fun i => (d i).2) i j := by
    unfold Spec.uCentre Spec.distMat
    split_ifs
    · exact measurable_const
    · fun_prop
  have h5 : Measurable fun d : Fin n → (Fin p → ℝ) × (Fin q → ℝ) =>
      Spec.uDcovSqr (Spec.distMat 1 fun i => (d i).1) (Spec.distMat 1 fun i => (d i).2) := by
    unfold Spec.uDcovSqr Spec.uInner
    fun_prop
  have h6 : Measurable fun d : Fin n → (Fin p → ℝ) × (Fin q → ℝ) =>
      Spec.uDcovSqr (Spec.distMat 1 fun i => (d i).1) (Spec.distMat 1 fun i => (d i).1) := by
    unfold Spec.uDcovSqr Spec.uInner
    fun_prop
  have h7 : Measurable fun d : Fin n → (Fin p → ℝ) × (Fin q → ℝ) =>
      Spec.uDcovSqr (Spec.distMat 1 fun i => (d i).2) (Spec.distMat 1 fun i => (d i).2) := by
    unfold Spec.uDcovSqr Spec.uInner
    fun_prop
  unfold Spec.uDcorSqr Spec.ratio
  refine Measurable.ite (measurableSet_eq_fun (h6.mul h7) measurable_const) measurable_const ?_
  exact h5.div (h6.mul h7).abs.sqrt

/-- C106: a bound of the probability of an error of the first kind that holds in all dimensions: for independent observations of
independent variables the p-value is at most the tail of the t-distribution at `τ` with a probability of at most
`1 / (1 + v τ² / (v - 1 + τ²))`, where `v = n(n-3)/2`. -/
theorem C106_level {Ω : Type*} {mΩ : MeasurableSpace Ω} {P : Measure Ω} [IsProbabilityMeasure P] {n : ℕ}
    {W : Fin n → Ω → (Fin p → ℝ) × (Fin q → ℝ)} {μ : Measure ((Fin p → ℝ) × (Fin q → ℝ))}
    [IsProbabilityMeasure μ] (hn : 3 < n) (hW : Spec.Observations P W μ) (hi : IndepFun Prod.fst Prod.snd μ) :
    ∃ a : Ω → ℝ,
      (∀ ω x y, Supported env x y {} (fun i => (W i ω).1) (fun i => (W i ω).2) → x.dtype ≠ .decimal → y.dtype ≠ .decimal →
        ∃ t, (distanceCorrelationTTest env studentT x y).out = .ok (.fin (a ω), t)) ∧
      ∀ τ v : ℝ, 0 < τ → v = n * (n - 3) / 2 →
        P.real {ω | a ω ≤ 1 - Spec.studentCdf (v - 1) τ} ≤ 1 / (1 + v * τ ^ 2 / (v - 1 + τ ^ 2)) := by
  have hl := RandomLevel.law_observations hW
  obtain ⟨r, hr⟩ : ∃ r : (Fin n → (Fin p → ℝ) × (Fin q → ℝ)) → ℝ,
      r = fun d => Spec.uDcorSqr (Spec.distMat 1 fun i => (d i).1) (Spec.distMat 1 fun i => (d i).2) := ⟨_, rfl⟩
  have mr : Measurable r := hr ▸ measurable_uDcor
  have hle (d) : |r d| ≤ 1 := by
    rw [hr]
    exact Spec.abs_uDcorSqr_le_one hn _ _
  refine ⟨fun ω => tPvalue n (r fun i => W i ω), fun ω x y h h1 h2 => ?_, fun τ v hτ hv => ?_⟩
  · rw [hr]
    exact ⟨_, tTest_value h hn h1 h2⟩
  · subst hv
    obtain ⟨ρ, hρ⟩ : ∃ ρ, ρ = τ / Real.sqrt ((n : ℝ) * ((n : ℝ) - 3) / 2 - 1 + τ ^ 2) := ⟨_, rfl⟩
    have hd := tDof_pos hn
    have hρ0 : 0 < ρ := by
      rw [hρ]
      positivity
    have hρ2 : ρ ^ 2 = τ ^ 2 / ((n : ℝ) * ((n : ℝ) - 3) / 2 - 1 + τ ^ 2) := by
      rw [hρ, div_pow, Real.sq_sqrt (by positivity)]
    have mA : MeasurableSet {d | ρ ≤ r d} := measurableSet_le measurable_const mr
    calc _ ≤ P.real {ω | ρ ≤ r fun i => W i ω} := by
          refine measureReal_mono fun ω hω => ?_
          have := le_of_tPvalue_le hn (hle fun i => W i ω) hτ hω
          rwa [← hρ] at this
      _ = (Measure.pi fun _ => μ).real {d | ρ ≤ r d} := hl.measureReal_preimage mA.nullMeasurableSet
      _ ≤ 1 / (1 + (n : ℝ) * ((n : ℝ) - 3) / 2 * ρ ^ 2) := ?_
      _ = _ := by rw [hρ2, ← mul_div_assoc]
    obtain ⟨κ, hκ⟩ : ∃ κ : Measure (Fin n → (Fin p → ℝ) × (Fin q → ℝ)), κ = Measure.pi fun _ => μ := ⟨_, rfl⟩
    have _ : IsProbabilityMeasure κ := by
      rw [hκ]
      infer_instance
    rw [← hκ]
    obtain ⟨act, hact⟩ : ∃ act : Equiv.Perm (Fin n) → (Fin n → (Fin p → ℝ) × (Fin q → ℝ)) →
        Fin n → (Fin p → ℝ) × (Fin q → ℝ), act = fun π d i => ((d (π i)).1, (d i).2) := ⟨_, rfl⟩
    have hinv (π : Equiv.Perm (Fin n)) : MeasurePreserving (act π) κ κ := by
      rw [hact, hκ]
      exact RandomLevel.permute_fst_preserving hi π
    have hcount (d) : ((univ.filter fun π => ρ ≤ r (act π d)).card : ℝ)
        ≤ 1 / (1 + (n : ℝ) * ((n : ℝ) - 3) / 2 * ρ ^ 2) * n.factorial := by
      obtain ⟨v, _, _, h1, -, -, -, -, h2⟩ := C103_u_correlation (env := stdEnv) (o := ⟨1, .enum .naive, .auto⟩)
        (X := fun i => (d i).1) (Y := fun i => (d i).2) (xs := fun π => npMat fun i => (d (π i)).1)
        (fun π => supported_mat _ _ 1 zero_le_one) (supported_mat _ _ 1 zero_le_one) (supported_mat _ _ 1 zero_le_one) hn
        one_ne_zero
      have hv : v = fun π => r (act π d) := by
        funext π
        have h3 := h1 π
        rw [uDistanceCorrelationSqr_ok (supported_mat _ _ 1 zero_le_one) hn one_ne_zero] at h3
        rw [hr, hact]
        exact (FP.fin.inj (Except.ok.inj h3)).symm
      have h4 := h2 ρ hρ0
      rwa [hv, div_le_iff₀ (by positivity)] at h4
    have hsum : (n.factorial : ℝ) * κ.real {d | ρ ≤ r d}
        = ∫ d, ((univ.filter fun π => ρ ≤ r (act π d)).card : ℝ) ∂κ := by
      have e (d) : ((univ.filter fun π => ρ ≤ r (act π d)).card : ℝ)
          = ∑ π, (act π ⁻¹' {d | ρ ≤ r d}).indicator (fun _ => (1 : ℝ)) d := by
        rw [← Finset.sum_boole]
        exact sum_congr rfl fun π _ => rfl
      simp only [e]
      rw [integral_finsetSum _ fun π _ => (integrable_const 1).indicator ((hinv π).measurable mA)]
      rw [sum_congr rfl fun π _ => by
        rw [integral_indicator_const _ ((hinv π).measurable mA), (hinv π).measureReal_preimage mA.nullMeasurableSet]]
      rw [sum_const, card_univ, nsmul_eq_mul, card_perm_fin, smul_eq_mul, mul_one]
    have hbound : (n.factorial : ℝ) * κ.real {d | ρ ≤ r d}
        ≤ n.factorial * (1 / (1 + (n : ℝ) * ((n : ℝ) - 3) / 2 * ρ ^ 2)) := by
      rw [hsum, mul_comm]
      refine (integral_mono_of_nonneg (ae_of_all _ fun d => Nat.cast_nonneg _) (integrable_const _)
        (ae_of_all _ hcount)).trans ?_
      rw [integral_const, probReal_univ, one_smul]
    exact le_of_mul_le_mul_left hbound (by positivity)

/-! ### Examples -/

theorem supported_line (hn : 3 < n) (X Y : Fin n → Fin 1 → ℝ) :
    Supported stdEnv (npVec fun i => X i 0) (npVec fun i => Y i 0) {} X Y := by
  have h := supported_vec hn (fun i => X i 0) (fun i => Y i 0) .auto .auto (Or.inl rfl)
  have e (Z : Fin n → Fin 1 → ℝ) : (fun i (_ : Fin 1) => Z i 0) = Z := by
    funext i c
    rw [Subsingleton.elim c 0]
  rwa [e, e] at h

example := C106_half (supported_vec (n := 5) (by norm_num) ![0, 1, 3, 2, 2] ![1, 0, 4, 4, 7] .auto .auto (Or.inl rfl))
  (by norm_num) (by simp [npVec]) (by simp [npVec])
example := C106_opposite (supported_vec (n := 5) (by norm_num) ![0, 1, 3, 2, 2] ![1, 0, 4, 4, 7] .auto .auto (Or.inl rfl))
  (supported_vec (n := 5) (by norm_num) ![4, 1, 3, 7, 2] ![1, 0, 2, 4, 7] .auto .auto (Or.inl rfl))
  (by norm_num) (by simp [npVec]) (by simp [npVec]) (by simp [npVec]) (by simp [npVec])

/-- The p-values of two equal coins tend to zero. -/
example : ∀ᵐ ω ∂(Measure.infinitePi fun _ : ℕ => coins), ∃ (a : ℕ → ℝ) (t : ℕ → FP ℝ),
    (∀ᶠ n in atTop, (distanceCorrelationTTest stdEnv studentT (npVec fun i : Fin n => (ω i).1 0)
      (npVec fun i : Fin n => (ω i).2 0)).out = .ok (.fin (a n), t n)) ∧
    Tendsto a atTop (𝓝 0) ∧ ∀ M : ℝ, ∀ᶠ n in atTop, FP.lt (.fin M) (t n) := by
  filter_upwards [C106_consistent (env := stdEnv) (exists_sample coins) (integrable_fair _ _ _) (integrable_fair _ _ _)
    coins_dep] with ω h
  refine h _ _ ?_
  filter_upwards [eventually_gt_atTop 3] with n hn
  exact ⟨supported_line hn _ _, by simp [npVec], by simp [npVec]⟩

/-- Twenty observations of two independent coins: the probability of a p-value of at most that of `t = 3` is at most 0.11. -/
example : ∃ a : (Fin 20 → (Fin 1 → ℝ) × (Fin 1 → ℝ)) → ℝ,
    (∀ ω, ∃ t, (distanceCorrelationTTest stdEnv studentT (npVec fun i => (ω i).1 0) (npVec fun i => (ω i).2 0)).out
      = .ok (.fin (a ω), t)) ∧
    (Measure.pi fun _ : Fin 20 => (coin 1).prod (coin 1)).real {ω | a ω ≤ 1 - Spec.studentCdf (170 - 1) 3} ≤ 11 / 100 := by
  obtain ⟨a, h1, h2⟩ := C106_level (env := stdEnv) (n := 20) (by norm_num)
    (exists_observations ((coin 1).prod (coin 1)) 20) (indepFun_prod measurable_id measurable_id)
  refine ⟨a, fun ω => h1 ω _ _ (supported_line (by norm_num) _ _) (by simp [npVec]) (by simp [npVec]), ?_⟩
  refine (h2 3 170 (by norm_num) (by norm_num)).trans ?_
  norm_num

end Dcor.Props

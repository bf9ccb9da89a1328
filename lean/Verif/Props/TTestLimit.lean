/-
Property C107: the limit of `distance_correlation_t_test` for independent coins.

The t-distribution approximates the statistic if the dimension is high. The function accepts data of any dimension.
-/
import Verif.Proofs.CoinLimit
import Verif.Proofs.StudentTail
import Verif.Props.TTest
import Verif.Props.Unbiasedness

namespace Dcor.Props

open Finset MeasureTheory ProbabilityTheory Filter Topology

variable {env : Env} {n : ℕ}

/-! ### The p-value and the statistic -/

theorem tPvalue_le_iff (hn : 3 < n) {r τ : ℝ} (hr : |r| ≤ 1) (hτ : 0 < τ) :
    tPvalue n r ≤ 1 - Spec.studentCdf ((n : ℝ) * ((n : ℝ) - 3) / 2 - 1) τ ↔
      τ / Real.sqrt ((n : ℝ) * ((n : ℝ) - 3) / 2 - 1 + τ ^ 2) ≤ r := by
  refine ⟨le_of_tPvalue_le hn hr hτ, fun h => ?_⟩
  have hd := tDof_pos hn
  have hs : 0 < Real.sqrt ((n : ℝ) * ((n : ℝ) - 3) / 2 - 1 + τ ^ 2) := Real.sqrt_pos.2 (by positivity)
  have r0 : 0 < r := lt_of_lt_of_le (div_pos hτ hs) h
  unfold tPvalue
  by_cases h1 : r = 1
  · rw [if_pos h1]
    have := Student.cdf_lt_one hd τ
    linarith
  rw [if_neg h1, if_neg (by linarith)]
  refine sub_le_sub_left ((Student.cdf_strictMono hd).le_iff_le.2 ?_) 1
  have hq := one_sub_sq_pos hr h1 (by linarith)
  have hq' := Real.sqrt_pos.2 hq
  rw [← mul_div_assoc, le_div_iff₀ hq']
  rw [div_le_iff₀ hs] at h
  refine (sq_le_sq₀ (by positivity) (mul_nonneg (tScale_pos hn).le r0.le)).1 ?_
  have h6 := pow_le_pow_left₀ hτ.le h 2
  rw [mul_pow, Real.sq_sqrt (by positivity)] at h6
  rw [mul_pow, mul_pow, Real.sq_sqrt hq.le, tScale, Real.sq_sqrt hd.le]
  nlinarith

/-- The critical value of the statistic, times `n - 3`. -/
theorem critical_tendsto (τ : ℝ) :
    Tendsto (fun n : ℕ => ((n : ℝ) - 3) * (τ / Real.sqrt ((n : ℝ) * ((n : ℝ) - 3) / 2 - 1 + τ ^ 2))) atTop
      (𝓝 (Real.sqrt 2 * τ)) := by
  have hinv : Tendsto (fun n : ℕ => ((n : ℝ) - 3)⁻¹) atTop (𝓝 0) :=
    tendsto_inv_atTop_zero.comp (tendsto_atTop_add_const_right _ (-3) tendsto_natCast_atTop_atTop)
  have h1 : Tendsto (fun n : ℕ => (1 + 3 * ((n : ℝ) - 3)⁻¹) / 2 + (τ ^ 2 - 1) * ((n : ℝ) - 3)⁻¹ ^ 2) atTop (𝓝 (1 / 2)) := by
    have := (((hinv.const_mul 3).const_add 1).div_const 2).add ((hinv.pow 2).const_mul (τ ^ 2 - 1))
    simpa using this
  have h2 := (h1.sqrt.inv₀ (by positivity)).const_mul τ
  have e : τ * (Real.sqrt (1 / 2))⁻¹ = Real.sqrt 2 * τ := by
    rw [one_div, Real.sqrt_inv, inv_inv, mul_comm]
  rw [e] at h2
  refine h2.congr' ?_
  filter_upwards [eventually_gt_atTop 3] with n hn
  have h3 : (0 : ℝ) < n - 3 := by
    have : (3 : ℝ) < n := by exact_mod_cast hn
    linarith
  have e2 : (n : ℝ) * ((n : ℝ) - 3) / 2 - 1 + τ ^ 2
      = ((n : ℝ) - 3) ^ 2 * ((1 + 3 * ((n : ℝ) - 3)⁻¹) / 2 + (τ ^ 2 - 1) * ((n : ℝ) - 3)⁻¹ ^ 2) := by
    field_simp
    ring
  rw [e2, Real.sqrt_mul (sq_nonneg _), Real.sqrt_sq h3.le]
  field_simp

/-! ### The limit of the statistic -/

theorem ae_coin {f : (Fin 1 → ℝ) → Prop} (mf : MeasurableSet {x | f x}) (h0 : f ![0]) (h1 : f ![1]) :
    ∀ᵐ x ∂(coin 1), f x := by
  rw [ae_iff]
  have m : MeasurableSet {x | ¬ f x} := mf.compl
  simp [fair, Measure.dirac_apply' _ m, h0, h1]

section

variable {Ω : Type*} {mΩ : MeasurableSpace Ω} {P : Measure Ω} [IsProbabilityMeasure P]
  {Z : ℕ → Ω → (Fin 1 → ℝ) × (Fin 1 → ℝ)}

/-- The side of a coin as a sign. -/
def side (x : Fin 1 → ℝ) : ℝ := 2 * x 0 - 1

theorem measurable_side : Measurable side := by
  unfold side
  fun_prop

theorem side_sq : ∀ᵐ x ∂(coin 1), side x ^ 2 = 1 := by
  refine ae_coin (measurableSet_eq_fun (measurable_side.pow_const 2) measurable_const) ?_ ?_ <;> norm_num [side]

theorem integral_side : ∫ x, side x ∂(coin 1) = 0 := by
  rw [integral_fair]
  norm_num [side]

theorem dist_side {x y : Fin 1 → ℝ} (hx : side x ^ 2 = 1) (hy : side y ^ 2 = 1) :
    Spec.dist 1 x y = (1 - side x * side y) / 2 := by
  have e (x : Fin 1 → ℝ) : x = ![x 0] := by
    funext c
    rw [Subsingleton.elim c 0]
    rfl
  have h1 : side x = 1 ∨ side x = -1 := by
    rw [sq] at hx
    exact mul_self_eq_one_iff.1 hx
  have h2 : side y = 1 ∨ side y = -1 := by
    rw [sq] at hy
    exact mul_self_eq_one_iff.1 hy
  have h3 : Spec.dist 1 x y = |x 0 - y 0| := by
    conv_lhs => rw [e x, e y]
    exact dist_one _ _
  have h4 : x 0 - y 0 = (side x - side y) / 2 := by
    unfold side
    ring
  rw [h3, h4]
  rcases h1 with h1 | h1 <;> rcases h2 with h2 | h2 <;> rw [h1, h2] <;> norm_num

omit [IsProbabilityMeasure P] in
theorem sample_parts (hZ : Spec.Sample P Z ((coin 1).prod (coin 1))) :
    Spec.Sample P (fun i ω => ((Z i ω).1, (Z i ω).1)) coins ∧ Spec.Sample P (fun i ω => ((Z i ω).2, (Z i ω).2)) coins := by
  have m : Measurable fun x : Fin 1 → ℝ => (x, x) := by fun_prop
  have h1 : Spec.Sample P (fun i ω => (Z i ω).1) (coin 1) := by
    have := hZ.comp measurable_fst
    rwa [Measure.map_fst_prod, measure_univ, one_smul] at this
  have h2 : Spec.Sample P (fun i ω => (Z i ω).2) (coin 1) := by
    have := hZ.comp measurable_snd
    rwa [Measure.map_snd_prod, measure_univ, one_smul] at this
  have g1 := h1.comp m
  have g2 := h2.comp m
  rw [map_fair m] at g1 g2
  exact ⟨g1, g2⟩

omit [IsProbabilityMeasure P] in
theorem ae_side (hZ : Spec.Sample P Z ((coin 1).prod (coin 1))) :
    ∀ᵐ ω ∂P, ∀ i, side (Z i ω).1 ^ 2 = 1 ∧ side (Z i ω).2 ^ 2 = 1 := by
  rw [ae_all_iff]
  intro i
  have h1 : ∀ᵐ z ∂((coin 1).prod (coin 1)), side z.1 ^ 2 = 1 := by
    have : ∀ᵐ x ∂((coin 1).prod (coin 1)).map Prod.fst, side x ^ 2 = 1 := by
      rw [Measure.map_fst_prod, measure_univ, one_smul]
      exact side_sq
    exact ae_of_ae_map measurable_fst.aemeasurable this
  have h2 : ∀ᵐ z ∂((coin 1).prod (coin 1)), side z.2 ^ 2 = 1 := by
    have : ∀ᵐ x ∂((coin 1).prod (coin 1)).map Prod.snd, side x ^ 2 = 1 := by
      rw [Measure.map_snd_prod, measure_univ, one_smul]
      exact side_sq
    exact ae_of_ae_map measurable_snd.aemeasurable this
  have h3 := h1.and h2
  rw [← hZ.law i] at h3
  exact ae_of_ae_map (hZ.measurable i).aemeasurable h3

/-- The bias-corrected distance correlation of the first `n` observations. -/
noncomputable def coinCor (Z : ℕ → Ω → (Fin 1 → ℝ) × (Fin 1 → ℝ)) (n : ℕ) (ω : Ω) : ℝ :=
  Spec.uDcorSqr (Spec.distMat 1 fun i : Fin n => (Z i ω).1) (Spec.distMat 1 fun i : Fin n => (Z i ω).2)

omit [IsProbabilityMeasure P] in
theorem measurable_coinCor (hZ : Spec.Sample P Z ((coin 1).prod (coin 1))) (n : ℕ) : Measurable (coinCor Z n) :=
  (measurable_uDcor (p := 1) (q := 1) (n := n)).comp (measurable_pi_lambda _ fun i => hZ.measurable i)

theorem measurable_uDcov_data {p q n : ℕ} :
    Measurable fun d : Fin n → (Fin p → ℝ) × (Fin q → ℝ) =>
      Spec.uDcovSqr (Spec.distMat 1 fun i => (d i).1) (Spec.distMat 1 fun i => (d i).2) := by
  have h1 (i j : Fin n) : Measurable fun d : Fin n → (Fin p → ℝ) × (Fin q → ℝ) => Spec.dist 1 (d i).1 (d j).1 := by
    have h := (Charac.dist_continuous zero_le_one).measurable.comp
      (by fun_prop : Measurable fun d : Fin n → (Fin p → ℝ) × (Fin q → ℝ) => ((d i).1, (d j).1))
    simp only [Function.comp_def] at h
    exact h
  have h2 (i j : Fin n) : Measurable fun d : Fin n → (Fin p → ℝ) × (Fin q → ℝ) => Spec.dist 1 (d i).2 (d j).2 := by
    have h := (Charac.dist_continuous zero_le_one).measurable.comp
      (by fun_prop : Measurable fun d : Fin n → (Fin p → ℝ) × (Fin q → ℝ) => ((d i).2, (d j).2))
    simp only [Function.comp_def] at h
    exact h
  have h3 (i j : Fin n) : Measurable fun d : Fin n → (Fin p → ℝ) × (Fin q → ℝ) =>
      Spec.uCentre (Spec.distMat 1 fun i => (d i).1) i j := by
    unfold Spec.uCentre Spec.distMat
    split_ifs
    · exact measurable_const
    · fun_prop
  have h4 (i j : Fin n) : Measurable fun d : Fin n → (Fin p → ℝ) × (Fin q → ℝ) =>
      Spec.uCentre (Spec.distMat 1 fun i => (d i).2) i j := by
    unfold Spec.uCentre Spec.distMat
    split_ifs
    · exact measurable_const
    · fun_prop
  unfold Spec.uDcovSqr Spec.uInner
  fun_prop

/-- The covariance, multiplied by `4(n - 3)`, tends to the square of a normal variable minus one. -/
theorem coin_cov_limit (hZ : Spec.Sample P Z ((coin 1).prod (coin 1))) (hI : iIndepFun Z P) :
    TendstoInDistribution (fun (n : ℕ) ω => 4 * ((n : ℝ) - 3)
      * Spec.uDcovSqr (Spec.distMat 1 fun i : Fin n => (Z i ω).1) (Spec.distMat 1 fun i : Fin n => (Z i ω).2))
      atTop (fun z : ℝ => z ^ 2 - 1) (fun _ => P) (gaussianReal 0 1) := by
  have m1 : Measurable fun z : (Fin 1 → ℝ) × (Fin 1 → ℝ) => side z.1 := measurable_side.comp measurable_fst
  have m2 : Measurable fun z : (Fin 1 → ℝ) × (Fin 1 → ℝ) => side z.2 := measurable_side.comp measurable_snd
  have s1 : ∀ᵐ z ∂((coin 1).prod (coin 1)), side z.1 ^ 2 = 1 := by
    have : ∀ᵐ x ∂((coin 1).prod (coin 1)).map Prod.fst, side x ^ 2 = 1 := by
      rw [Measure.map_fst_prod, measure_univ, one_smul]
      exact side_sq
    exact ae_of_ae_map measurable_fst.aemeasurable this
  have s2 : ∀ᵐ z ∂((coin 1).prod (coin 1)), side z.2 ^ 2 = 1 := by
    have : ∀ᵐ x ∂((coin 1).prod (coin 1)).map Prod.snd, side x ^ 2 = 1 := by
      rw [Measure.map_snd_prod, measure_univ, one_smul]
      exact side_sq
    exact ae_of_ae_map measurable_snd.aemeasurable this
  have s3 : ∀ᵐ z ∂((coin 1).prod (coin 1)), (side z.1 * side z.2) ^ 2 = 1 := by
    filter_upwards [s1, s2] with z h1 h2
    rw [mul_pow, h1, h2, one_mul]
  have i1 : ∫ z, side z.1 ∂((coin 1).prod (coin 1)) = 0 := by
    have := integral_prod_mul (μ := coin 1) (ν := coin 1) side fun _ => 1
    simpa [integral_side] using this
  have i2 : ∫ z, side z.2 ∂((coin 1).prod (coin 1)) = 0 := by
    have := integral_prod_mul (μ := coin 1) (ν := coin 1) (fun _ => 1) side
    simpa [integral_side] using this
  have i3 : ∫ z, side z.1 * side z.2 ∂((coin 1).prod (coin 1)) = 0 := by
    rw [integral_prod_mul, integral_side, zero_mul]
  have hm (n : ℕ) : Measurable fun ω => 4 * ((n : ℝ) - 3)
      * Spec.uDcovSqr (Spec.distMat 1 fun i : Fin n => (Z i ω).1) (Spec.distMat 1 fun i : Fin n => (Z i ω).2) :=
    ((measurable_uDcov_data (p := 1) (q := 1) (n := n)).comp
      (measurable_pi_lambda (fun ω (i : Fin n) => Z i ω) fun i => hZ.measurable i)).const_mul _
  have h := CoinLimit.square_tendsto hZ hI (m1.mul m2) s3 i3
  refine CoinLimit.tendsto_add_remainder h (D := fun n ω => 4 * ((n : ℝ) - 3)
      * Spec.uDcovSqr (Spec.distMat 1 fun i : Fin n => (Z i ω).1) (Spec.distMat 1 fun i : Fin n => (Z i ω).2)
      - ((∑ i ∈ range n, side (Z i ω).1 * side (Z i ω).2) ^ 2 / n - 1)) ?_ (fun n => (hm n).aemeasurable) fun n ω => by
    simp only [Pi.mul_apply]
    ring
  refine CoinLimit.remainder_tendsto hZ m1 m2 s1 s2 i1 i2 i3 ?_
  filter_upwards [ae_side hZ] with ω hω
  intro n hn A B R hA hB hR
  rw [CoinLimit.uDcovSqr_signs hn (Spec.distMat 1 fun i : Fin n => (Z i ω).1) (Spec.distMat 1 fun i : Fin n => (Z i ω).2)
    (fun i : Fin n => side (Z i ω).1) (fun i : Fin n => side (Z i ω).2)
    (fun i => (hω i).1) (fun i => (hω i).2) (fun i j => dist_side (hω i).1 (hω j).1)
    (fun i j => dist_side (hω i).2 (hω j).2) (S := A) (T := B) (R := R) (by rw [hA, Finset.sum_range])
    (by rw [hB, Finset.sum_range]) (by rw [hR, Finset.sum_range]), ← hR]
  ring

/-- The correlation, multiplied by `n - 3`, tends to the square of a normal variable minus one. -/
theorem coin_limit (hZ : Spec.Sample P Z ((coin 1).prod (coin 1))) (hI : iIndepFun Z P) :
    TendstoInDistribution (fun (n : ℕ) ω => ((n : ℝ) - 3) * coinCor Z n ω) atTop (fun z : ℝ => z ^ 2 - 1) (fun _ => P)
      (gaussianReal 0 1) := by
  obtain ⟨p1, p2⟩ := sample_parts hZ
  have h := CoinLimit.tendsto_div (coin_cov_limit hZ hI) (H := fun n ω => 4 * Real.sqrt
    |Spec.uDcovSqr (Spec.distMat 1 fun i : Fin n => (Z i ω).1) (Spec.distMat 1 fun i : Fin n => (Z i ω).1)
      * Spec.uDcovSqr (Spec.distMat 1 fun i : Fin n => (Z i ω).2) (Spec.distMat 1 fun i : Fin n => (Z i ω).2)|) ?_ ?_
  · refine h.congr (fun n => ae_of_all _ fun ω => ?_) (ae_eq_refl _)
    beta_reduce
    unfold coinCor Spec.uDcorSqr Spec.ratio
    split_ifs with h0
    · rw [h0]
      simp
    · have : Real.sqrt |Spec.uDcovSqr (Spec.distMat 1 fun i : Fin n => (Z i ω).1) (Spec.distMat 1 fun i : Fin n => (Z i ω).1)
          * Spec.uDcovSqr (Spec.distMat 1 fun i : Fin n => (Z i ω).2) (Spec.distMat 1 fun i : Fin n => (Z i ω).2)| ≠ 0 := by
        rw [Real.sqrt_ne_zero']
        exact abs_pos.2 h0
      field_simp
  · filter_upwards [Consistency.uDcovSqr_law one_pos p1 coins_moments, Consistency.uDcovSqr_law one_pos p2 coins_moments]
      with ω h1 h2
    rw [dcovPop_coins] at h1 h2
    have := (h1.mul h2).abs.sqrt.const_mul 4
    have e : 4 * Real.sqrt |(1 / 4 : ℝ) * (1 / 4)| = 1 := by
      rw [abs_mul_self, Real.sqrt_mul_self (by norm_num)]
      norm_num
    rwa [e] at this
  · intro n
    have a1 := (measurable_uDcov_data (p := 1) (q := 1) (n := n)).comp
      (measurable_pi_lambda (fun ω (i : Fin n) => ((Z i ω).1, (Z i ω).1)) fun i => p1.measurable i)
    have a2 := (measurable_uDcov_data (p := 1) (q := 1) (n := n)).comp
      (measurable_pi_lambda (fun ω (i : Fin n) => ((Z i ω).2, (Z i ω).2)) fun i => p2.measurable i)
    exact (((a1.mul a2).abs.sqrt).const_mul 4).aemeasurable

/-- The probability that the correlation exceeds the critical value. -/
theorem coin_probability (hZ : Spec.Sample P Z ((coin 1).prod (coin 1))) (hI : iIndepFun Z P) {κ : ℕ → ℝ} {c : ℝ}
    (hκ : Tendsto (fun n : ℕ => ((n : ℝ) - 3) * κ n) atTop (𝓝 c)) :
    Tendsto (fun n => P.real {ω | κ n ≤ coinCor Z n ω}) atTop (𝓝 ((gaussianReal 0 1).real {z | 1 + c ≤ z ^ 2})) := by
  have hm : TendstoInMeasure P (fun (n : ℕ) (_ : Ω) => -(((n : ℝ) - 3) * κ n)) atTop (fun _ => -c) :=
    tendstoInMeasure_of_tendsto_ae (fun n => aestronglyMeasurable_const) (ae_of_all _ fun ω => hκ.neg)
  have h := (coin_limit hZ hI).add_of_tendstoInMeasure_const hm fun n => aemeasurable_const
  have h2 := ProbabilityMeasure.tendsto_measure_of_null_frontier_of_tendsto' h.tendsto (E := Set.Ici 0) ?_
  · have hp : IsProbabilityMeasure ((gaussianReal 0 1).map fun z : ℝ => z ^ 2 - 1 + -c) :=
      Measure.isProbabilityMeasure_map (by fun_prop)
    have h3 := (ENNReal.tendsto_toReal (measure_ne_top ((gaussianReal 0 1).map fun z : ℝ => z ^ 2 - 1 + -c) _)).comp h2
    have e1 : ((gaussianReal 0 1).map fun z : ℝ => z ^ 2 - 1 + -c) (Set.Ici 0)
        = (gaussianReal 0 1) {z | 1 + c ≤ z ^ 2} := by
      rw [Measure.map_apply (by fun_prop) measurableSet_Ici]
      congr 1
      ext z
      simp only [Set.mem_preimage, Set.mem_Ici, Set.mem_ofPred_eq]
      constructor <;> intro h <;> linarith
    have e2 : ∀ᶠ n : ℕ in atTop, ((P.map ((fun ω => ((n : ℝ) - 3) * coinCor Z n ω)
        + fun _ => -(((n : ℝ) - 3) * κ n))) (Set.Ici 0)).toReal = P.real {ω | κ n ≤ coinCor Z n ω} := by
      filter_upwards [eventually_gt_atTop 3] with n hn
      have n3 : (0 : ℝ) < n - 3 := by
        have : (3 : ℝ) < n := by exact_mod_cast hn
        linarith
      rw [Measure.map_apply (((measurable_coinCor hZ n).const_mul _).add measurable_const) measurableSet_Ici, Measure.real]
      congr 2
      ext ω
      simp only [Set.mem_preimage, Set.mem_Ici, Set.mem_ofPred_eq, Pi.add_apply]
      rw [← sub_eq_add_neg, ← mul_sub, mul_nonneg_iff_of_pos_left n3, sub_nonneg]
    refine (h3.congr' e2).trans (le_of_eq ?_)
    show 𝓝 (((gaussianReal 0 1).map fun z : ℝ => z ^ 2 - 1 + -c) (Set.Ici 0)).toReal = _
    rw [e1]
    rfl
  · show ((gaussianReal 0 1).map fun z : ℝ => z ^ 2 - 1 + -c) (frontier (Set.Ici 0)) = 0
    rw [frontier_Ici, Measure.map_apply (by fun_prop) (measurableSet_singleton _)]
    have : NullSingletonClass (gaussianReal 0 1) := nullSingletonClass_gaussianReal one_ne_zero
    refine measure_mono_null (t := {Real.sqrt (1 + c), -Real.sqrt (1 + c)}) (fun z hz => ?_) (Set.Countable.measure_zero (by simp) _)
    have hz' : z ^ 2 - 1 + -c = 0 := hz
    have h5 : z ^ 2 = 1 + c := by linarith
    have h6 : |z| = Real.sqrt (1 + c) := by rw [← h5, Real.sqrt_sq_eq_abs]
    rcases abs_choice z with h7 | h7
    · left
      rw [← h6, h7]
    · right
      show z = _
      rw [← h6, h7, neg_neg]

/-- C107: the p-values of `n` independent observations of two independent coins are at most the tail of the t-distribution at `τ`
with a probability that tends to the one of `1 + √2 τ ≤ z²` for a normal variable `z`. -/
theorem C107_limit (hZ : Spec.Sample P Z ((coin 1).prod (coin 1))) (hI : iIndepFun Z P) :
    ∃ a : ℕ → Ω → ℝ,
      (∀ n ω x y, 3 < n → Supported env x y {} (fun i : Fin n => (Z i ω).1) (fun i : Fin n => (Z i ω).2) →
        x.dtype ≠ .decimal → y.dtype ≠ .decimal →
        ∃ t, (distanceCorrelationTTest env studentT x y).out = .ok (.fin (a n ω), t)) ∧
      ∀ τ : ℝ, 0 < τ → Tendsto
        (fun n : ℕ => P.real {ω | a n ω ≤ 1 - Spec.studentCdf ((n : ℝ) * ((n : ℝ) - 3) / 2 - 1) τ}) atTop
        (𝓝 ((gaussianReal 0 1).real {z | 1 + Real.sqrt 2 * τ ≤ z ^ 2})) := by
  refine ⟨fun n ω => tPvalue n (coinCor Z n ω), fun n ω x y hn h h1 h2 => ⟨_, tTest_value h hn h1 h2⟩, fun τ hτ => ?_⟩
  refine (coin_probability hZ hI (critical_tendsto τ)).congr' ?_
  filter_upwards [eventually_gt_atTop 3] with n hn
  congr 1
  ext ω
  exact (tPvalue_le_iff hn (Spec.abs_uDcorSqr_le_one hn _ _) hτ).symm

/-- C107: for all large numbers of observations of two independent coins, the p-value is at most 1/100000 with a probability of
at least 1/1000. -/
theorem C107_small_pvalues (hZ : Spec.Sample P Z ((coin 1).prod (coin 1))) (hI : iIndepFun Z P) :
    ∃ a : ℕ → Ω → ℝ,
      (∀ n ω x y, 3 < n → Supported env x y {} (fun i : Fin n => (Z i ω).1) (fun i : Fin n => (Z i ω).2) →
        x.dtype ≠ .decimal → y.dtype ≠ .decimal →
        ∃ t, (distanceCorrelationTTest env studentT x y).out = .ok (.fin (a n ω), t)) ∧
      ∀ᶠ n : ℕ in atTop, 1 / 1000 ≤ P.real {ω | a n ω ≤ 1 / 100000} := by
  obtain ⟨a, h1, h2⟩ := C107_limit (env := env) hZ hI
  refine ⟨a, h1, ?_⟩
  filter_upwards [(h2 5 (by norm_num)).eventually_const_lt Student.gaussian_five, eventually_ge_atTop 20] with n h3 hn
  refine h3.le.trans (measureReal_mono fun ω hω => ?_)
  have hn' : (20 : ℝ) ≤ n := by exact_mod_cast hn
  have hω' : a n ω ≤ 1 - Spec.studentCdf ((n : ℝ) * ((n : ℝ) - 3) / 2 - 1) 5 := hω
  exact hω'.trans (Student.tail_five (by nlinarith))

/-! ### Four observations -/

/-- Four sides of a coin, two of each kind, and the same sides or the opposite ones of the other coin. -/
def fourSides : Finset ((Fin 4 → Bool) × Bool) := univ.filter fun s => (univ.filter fun i => s.1 i = true).card = 2

/-- A side of a coin. -/
def sideOf (b : Bool) : Fin 1 → ℝ := ![if b then 1 else 0]

theorem side_sideOf (b : Bool) : side (sideOf b) = if b then 1 else -1 := by
  cases b <;> norm_num [side, sideOf]

theorem coinCor_four {s : (Fin 4 → Bool) × Bool} (hs : s ∈ fourSides) :
    Spec.uDcorSqr (Spec.distMat 1 fun i => sideOf (s.1 i)) (Spec.distMat 1 fun i => sideOf (xor (s.1 i) s.2)) = 1 := by
  have hsq (b : Bool) : side (sideOf b) ^ 2 = 1 := by
    rw [side_sideOf]
    cases b <;> norm_num
  have e : (Spec.distMat 1 fun i => sideOf (xor (s.1 i) s.2)) = Spec.distMat 1 fun i => sideOf (s.1 i) := by
    funext i j
    show Spec.dist 1 _ _ = Spec.dist 1 _ _
    rw [dist_side (hsq _) (hsq _), dist_side (hsq _) (hsq _)]
    simp only [side_sideOf]
    cases s.1 i <;> cases s.1 j <;> cases s.2 <;> norm_num
  have h0 : ∑ i, side (sideOf (s.1 i)) = 0 := by
    have : ∀ s ∈ fourSides, ∑ i, (if s.1 i then (1 : ℤ) else -1) = 0 := by decide
    simp only [side_sideOf]
    exact_mod_cast this s hs
  have hv := CoinLimit.uDcovSqr_signs (show 3 < 4 by norm_num) (Spec.distMat 1 fun i => sideOf (s.1 i))
    (Spec.distMat 1 fun i => sideOf (s.1 i)) (fun i => side (sideOf (s.1 i))) (fun i => side (sideOf (s.1 i)))
    (fun i => hsq _) (fun i => hsq _) (fun i j => dist_side (hsq _) (hsq _)) (fun i j => dist_side (hsq _) (hsq _))
    h0.symm h0.symm (R := 4) (by
      simp only [← sq, hsq]
      norm_num)
  have hv' : Spec.uDcovSqr (Spec.distMat 1 fun i => sideOf (s.1 i)) (Spec.distMat 1 fun i => sideOf (s.1 i)) = 2 / 3 := by
    norm_num at hv
    linarith
  rw [e, Spec.uDcorSqr, Spec.ratio, hv', if_neg (by norm_num), abs_mul_self, Real.sqrt_mul_self (by norm_num)]
  norm_num

theorem coin_side (b : Bool) : (coin 1).real {sideOf b} = 1 / 2 := by
  have h : ((![0] : Fin 1 → ℝ) = ![1]) = False := by
    rw [eq_iff_iff, iff_false]
    intro h
    have := congrFun h 0
    norm_num at this
  cases b
  · simp [fair, Measure.real, sideOf, Set.indicator, h, Ne.symm]
  · simp [fair, Measure.real, sideOf, Set.indicator, h]

/-- C107: the p-value of four independent observations of two independent coins is zero with a probability of at least 3/64. -/
theorem C107_four {W : Fin 4 → Ω → (Fin 1 → ℝ) × (Fin 1 → ℝ)} (hW : Spec.Observations P W ((coin 1).prod (coin 1))) :
    ∃ a : Ω → ℝ,
      (∀ ω x y, Supported env x y {} (fun i => (W i ω).1) (fun i => (W i ω).2) → x.dtype ≠ .decimal → y.dtype ≠ .decimal →
        ∃ t, (distanceCorrelationTTest env studentT x y).out = .ok (.fin (a ω), t)) ∧
      3 / 64 ≤ P.real {ω | a ω = 0} := by
  refine ⟨fun ω => tPvalue 4 (Spec.uDcorSqr (Spec.distMat 1 fun i => (W i ω).1) (Spec.distMat 1 fun i => (W i ω).2)),
    fun ω x y h h1 h2 => ⟨_, tTest_value h (by norm_num) h1 h2⟩, ?_⟩
  obtain ⟨A, hA⟩ : ∃ A : (Fin 4 → Bool) × Bool → Set Ω,
    A = fun s => ⋂ i ∈ (univ : Finset (Fin 4)), W i ⁻¹' {(sideOf (s.1 i), sideOf (xor (s.1 i) s.2))} := ⟨_, rfl⟩
  have mA (s) : MeasurableSet (A s) := by
    rw [hA]
    exact Finset.measurableSet_biInter _ fun i _ => hW.measurable i (measurableSet_singleton _)
  have hp (s) : P.real (A s) = 1 / 256 := by
    rw [hA, Measure.real, hW.indep.measure_inter_preimage_eq_mul univ fun i _ => measurableSet_singleton _,
      ENNReal.toReal_prod]
    have h (i) : (P (W i ⁻¹' {(sideOf (s.1 i), sideOf (xor (s.1 i) s.2))})).toReal = 1 / 4 := by
      rw [← Measure.map_apply (hW.measurable i) (measurableSet_singleton _), hW.law i, ← Set.singleton_prod_singleton,
        Measure.prod_prod, ENNReal.toReal_mul]
      have h1 := coin_side (s.1 i)
      have h2 := coin_side (xor (s.1 i) s.2)
      rw [Measure.real] at h1 h2
      rw [h1, h2]
      norm_num
    simp only [h]
    norm_num
  have hinj : Function.Injective sideOf := by
    intro b c h
    have := congrFun h 0
    cases b <;> cases c <;> simp [sideOf] at this ⊢
  have hdis : Set.PairwiseDisjoint (fourSides : Set ((Fin 4 → Bool) × Bool)) A := by
    intro s _ s' _ hne
    refine Set.disjoint_left.2 fun ω h1 h2 => hne ?_
    rw [hA] at h1 h2
    simp only [Set.mem_iInter, Set.mem_preimage, Set.mem_singleton_iff] at h1 h2
    have h3 (i) := (h1 i (mem_univ i)).symm.trans (h2 i (mem_univ i))
    have h4 : s.1 = s'.1 := funext fun i => hinj (Prod.ext_iff.1 (h3 i)).1
    refine Prod.ext h4 ?_
    have h5 := hinj (Prod.ext_iff.1 (h3 0)).2
    rw [h4] at h5
    exact Bool.xor_right_inj.1 h5
  calc (3 / 64 : ℝ) = ∑ s ∈ fourSides, P.real (A s) := by
        simp only [hp]
        rw [Finset.sum_const, show fourSides.card = 12 by decide]
        norm_num
    _ = P.real (⋃ s ∈ fourSides, A s) := (measureReal_biUnion_finset hdis fun s _ => mA s).symm
    _ ≤ _ := by
      refine measureReal_mono fun ω hω => ?_
      simp only [Set.mem_iUnion] at hω
      obtain ⟨s, hs, hω⟩ := hω
      rw [hA] at hω
      simp only [Set.mem_iInter, Set.mem_preimage, Set.mem_singleton_iff] at hω
      have h1 (i) : (W i ω).1 = sideOf (s.1 i) := by rw [hω i (mem_univ i)]
      have h2 (i) : (W i ω).2 = sideOf (xor (s.1 i) s.2) := by rw [hω i (mem_univ i)]
      show tPvalue 4 _ = 0
      simp only [h1, h2]
      rw [coinCor_four hs, tPvalue, if_pos rfl]

end

/-- Observations of two independent coins, each pair independent of the others. -/
theorem exists_coins : Spec.Sample (Measure.infinitePi fun _ : ℕ => (coin 1).prod (coin 1)) (fun i ω => ω i)
      ((coin 1).prod (coin 1)) ∧
    iIndepFun (fun i (ω : ℕ → (Fin 1 → ℝ) × (Fin 1 → ℝ)) => ω i) (Measure.infinitePi fun _ : ℕ => (coin 1).prod (coin 1)) :=
  ⟨exists_sample _, iIndepFun_infinitePi (P := fun _ : ℕ => (coin 1).prod (coin 1)) (X := fun _ ω => ω) fun _ => measurable_id⟩

/-- The observations as one-dimensional arrays. -/
example : ∃ a : ℕ → (ℕ → (Fin 1 → ℝ) × (Fin 1 → ℝ)) → ℝ,
    (∀ n ω, 3 < n → ∃ t, (distanceCorrelationTTest stdEnv studentT (npVec fun i : Fin n => (ω i).1 0)
      (npVec fun i : Fin n => (ω i).2 0)).out = .ok (.fin (a n ω), t)) ∧
    ∀ᶠ n : ℕ in atTop,
      1 / 1000 ≤ (Measure.infinitePi fun _ : ℕ => (coin 1).prod (coin 1)).real {ω | a n ω ≤ 1 / 100000} := by
  obtain ⟨a, h1, h2⟩ := C107_small_pvalues (env := stdEnv) exists_coins.1 exists_coins.2
  exact ⟨a, fun n ω hn => h1 n ω _ _ hn (supported_line hn _ _) (by simp [npVec]) (by simp [npVec]), h2⟩

example := C107_limit (env := stdEnv) exists_coins.1 exists_coins.2

example : ∃ a : (Fin 4 → (Fin 1 → ℝ) × (Fin 1 → ℝ)) → ℝ,
    (∀ ω, ∃ t, (distanceCorrelationTTest stdEnv studentT (npVec fun i => (ω i).1 0) (npVec fun i => (ω i).2 0)).out
      = .ok (.fin (a ω), t)) ∧
    3 / 64 ≤ (Measure.pi fun _ : Fin 4 => (coin 1).prod (coin 1)).real {ω | a ω = 0} := by
  obtain ⟨a, h1, h2⟩ := C107_four (env := stdEnv) (exists_observations ((coin 1).prod (coin 1)) 4)
  exact ⟨a, fun ω => h1 ω _ _ (supported_line (by norm_num) _ _) (by simp [npVec]) (by simp [npVec]), h2⟩

end Dcor.Props

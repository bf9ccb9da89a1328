/-
Property C101: `u_distance_covariance_sqr` and the U-statistic of `energy_distance` are unbiased, `distance_covariance_sqr`
and the V-statistic are not.
-/
import Verif.Proofs.Expectation
import Verif.Props.Characterization

namespace Dcor.Props

open Finset MeasureTheory ProbabilityTheory Filter

variable {env : Env} {p q n m : ℕ} {α : ℝ} {Ω : Type*} {mΩ : MeasurableSpace Ω} {P : Measure Ω} [IsProbabilityMeasure P]

/-! ### Distance covariance -/

section Dcov

variable {Z : Fin n → Ω → (Fin p → ℝ) × (Fin q → ℝ)} {μ : Measure ((Fin p → ℝ) × (Fin q → ℝ))} [IsProbabilityMeasure μ]

/-- C101: the expectation of `u_distance_covariance_sqr` of more than three observations, with any method, is the distance
covariance of the distribution. -/
theorem C101_u_covariance (hα : 0 < α) (hn : 3 < n) (hZ : Spec.Observations P Z μ) (hm : Spec.Moments α μ) :
    ∃ v : Ω → ℝ, (∀ ω x y o, o.exponent = α →
      Supported env x y o (fun i => (Z i ω).1) (fun i => (Z i ω).2) →
      (uDistanceCovarianceSqr env x y o).out = .ok (.fin (v ω))) ∧
    Integrable v P ∧ ∫ ω, v ω ∂P = Spec.dcovPop α μ := by
  obtain ⟨h, -⟩ := Expectation.dcov_expect hα hZ.measurable hZ.law hZ.indep hm rfl rfl rfl
  exact ⟨_, fun ω x y o ho hs => by rw [uDistanceCovarianceSqr_ok hs hn (by rw [ho]; exact hα.ne'), ho], h hn⟩

omit [IsProbabilityMeasure P] in
/-- The mean distance of two observations is positive, unless there is one value only. -/
theorem mean_dist_pos {S : Type*} [MeasurableSpace S] {κ : Measure S} [IsProbabilityMeasure κ] (hα : 0 < α)
    {f : S → Fin p → ℝ} (hf : Measurable f) (hi : Integrable (fun z => Spec.dist α (f z) 0) κ)
    (hc : ¬ ∃ c, ∀ᵐ z ∂κ, f z = c) : 0 < ∫ z, ∫ z', Spec.dist α (f z) (f z') ∂κ ∂κ := by
  have hk := Expectation.dist_kernel hα hf
  have hw : Integrable (fun z => Consistency.weight α (f z)) κ := by
    refine (((integrable_const 1).add hi).const_mul (2 ^ α)).mono' hk.weight.aestronglyMeasurable
      (Eventually.of_forall fun z => ?_)
    rw [Real.norm_of_nonneg (hk.nonneg z)]
    exact Consistency.weight_le hα.le _
  have hint := hk.integrable hw
  rw [← integral_prod _ hint]
  refine lt_of_le_of_ne (integral_nonneg fun r => Consistency.dist_nonneg _ _) fun e => hc ?_
  have h0 := (integral_eq_zero_iff_of_nonneg (fun r => Consistency.dist_nonneg _ _) hint).1 e.symm
  obtain ⟨z, hz⟩ := (Measure.ae_ae_of_ae_prod h0).exists
  refine ⟨f z, hz.mono fun z' h => ?_⟩
  have h' : Spec.dist α (f z) (f z') = 0 := h
  rw [Spec.dist_eq_sqDist_rpow, Real.rpow_eq_zero (Spec.sqDist_nonneg _ _) (by linarith), Spec.sqDist_eq_zero] at h'
  exact h'.symm

/-- C101: for independent variables the expectation of `distance_covariance_sqr` is `(n - 1) / n ^ 2` times the product of the
mean distances. This is more than the limit zero, unless a variable has one value only. -/
theorem C101_covariance_biased (hα : 0 < α) (hn : 1 < n) (hZ : Spec.Observations P Z μ) (hm : Spec.Moments α μ)
    (hi : IndepFun Prod.fst Prod.snd μ) (hcx : ¬ ∃ c, ∀ᵐ z ∂μ, z.1 = c) (hcy : ¬ ∃ c, ∀ᵐ z ∂μ, z.2 = c) :
    ∃ v : Ω → ℝ, (∀ ω x y o, o.exponent = α →
      Supported env x y o (fun i => (Z i ω).1) (fun i => (Z i ω).2) →
      (distanceCovarianceSqr env x y o).out = .ok (.fin (v ω))) ∧
    Integrable v P ∧ 0 < ∫ ω, v ω ∂P ∧ ∫ ω, v ω ∂P
      = (n - 1) / n ^ 2 * ((∫ z, ∫ z', Spec.dist α z.1 z'.1 ∂μ ∂μ) * ∫ z, ∫ z', Spec.dist α z.2 z'.2 ∂μ ∂μ) := by
  obtain ⟨-, h⟩ := Expectation.dcov_expect hα hZ.measurable hZ.law hZ.indep hm rfl rfl rfl
  obtain ⟨i, e⟩ := h (by omega)
  have h1 : (1 : ℝ) < n := by exact_mod_cast hn
  have e0 : (n : ℝ) ≠ 0 := by linarith
  obtain ⟨t1, t2⟩ := Charac.terms_of_parts hα.le (Charac.parts_iff.2 hi)
  have e' : ∫ ω, Spec.dcovSqr (Spec.distMat α fun i => (Z i ω).1) (Spec.distMat α fun i => (Z i ω).2) ∂P
      = (n - 1) / n ^ 2 * ((∫ z, ∫ z', Spec.dist α z.1 z'.1 ∂μ ∂μ) * ∫ z, ∫ z', Spec.dist α z.2 z'.2 ∂μ ∂μ) := by
    rw [e, t1, t2]
    field_simp
    ring
  refine ⟨_, fun ω x y o ho hs => by rw [distanceCovarianceSqr_ok hs (by omega), ho], i, ?_, e'⟩
  rw [e']
  have d1 := mean_dist_pos hα measurable_fst hm.fst hcx
  have d2 := mean_dist_pos hα measurable_snd hm.snd hcy
  have : 0 < (n : ℝ) - 1 := by linarith
  positivity

end Dcov

/-! ### Energy distance -/

section Energy

variable {X : Fin n → Ω → Fin p → ℝ} {Y : Fin m → Ω → Fin p → ℝ} {μ ν : Measure (Fin p → ℝ)} [IsProbabilityMeasure μ]
  [IsProbabilityMeasure ν]

/-- C101: the expectation of the U-statistic of `energy_distance` is the energy distance of the distributions. -/
theorem C101_energy_u (hα : 0 < α) (hn : 1 < n) (hm : 1 < m) (hX : Spec.Observations P X μ) (hY : Spec.Observations P Y ν)
    (hi : ∀ i j, IndepFun (X i) (Y j) P) (hμ : Integrable (fun x => Spec.dist α x 0) μ)
    (hν : Integrable (fun x => Spec.dist α x 0) ν) :
    ∃ v : Ω → ℝ, (∀ ω x y o, o.exponent = α → o.stat.resolve env = .ok .u →
      EnergyCall x y o (fun i => X i ω) (fun i => Y i ω) →
      (energyDistance env x y o).out.map Scalar.val = .ok (.fin (v ω))) ∧
    Integrable v P ∧ ∫ ω, v ω ∂P = Spec.energyPop α μ ν := by
  obtain ⟨h, -⟩ := Expectation.energy_expect hα hX.measurable hY.measurable hX.law hY.law hi
    (fun _ _ h => hX.indep.indepFun h) (fun _ _ h => hY.indep.indepFun h) hμ hν hn hm
  refine ⟨_, fun ω x y o ho hs hc => ?_, h⟩
  rw [energyDistance_u hc hs hn hm, ho]
  rfl

/-- C101: the expectation of the V-statistic is larger than the energy distance of the distributions by the mean distances
within the samples divided by their sizes. -/
theorem C101_energy_v (hα : 0 < α) (hn : 1 < n) (hm : 1 < m) (hX : Spec.Observations P X μ) (hY : Spec.Observations P Y ν)
    (hi : ∀ i j, IndepFun (X i) (Y j) P) (hμ : Integrable (fun x => Spec.dist α x 0) μ)
    (hν : Integrable (fun x => Spec.dist α x 0) ν) :
    ∃ v : Ω → ℝ, (∀ ω x y o, o.exponent = α → o.stat.resolve env = .ok .v →
      EnergyCall x y o (fun i => X i ω) (fun i => Y i ω) →
      (energyDistance env x y o).out.map Scalar.val = .ok (.fin (v ω))) ∧
    Integrable v P ∧ ∫ ω, v ω ∂P = Spec.energyPop α μ ν + (∫ x, ∫ x', Spec.dist α x x' ∂μ ∂μ) / n
      + (∫ y, ∫ y', Spec.dist α y y' ∂ν ∂ν) / m ∧
    ((¬ ∃ c, ∀ᵐ x ∂μ, x = c) → Spec.energyPop α μ ν < ∫ ω, v ω ∂P) := by
  obtain ⟨-, h1, h2⟩ := Expectation.energy_expect hα hX.measurable hY.measurable hX.law hY.law hi
    (fun _ _ h => hX.indep.indepFun h) (fun _ _ h => hY.indep.indepFun h) hμ hν hn hm
  refine ⟨_, fun ω x y o ho hs hc => ?_, h1, h2, fun hc => ?_⟩
  · rw [energyDistance_v hc hs (by omega) (by omega), ho]
    rfl
  · rw [h2]
    have d1 : 0 < (∫ x, ∫ x', Spec.dist α x x' ∂μ ∂μ) / n :=
      div_pos (mean_dist_pos hα measurable_id hμ hc) (by exact_mod_cast (by omega : 0 < n))
    have d2 : 0 ≤ (∫ y, ∫ y', Spec.dist α y y' ∂ν ∂ν) / m :=
      div_nonneg (integral_nonneg fun y => integral_nonneg fun y' => Consistency.dist_nonneg _ _) (Nat.cast_nonneg m)
    linarith

end Energy

/-! ### Examples -/

/-- There are observations of every distribution. -/
theorem exists_observations {S : Type} [MeasurableSpace S] (μ : Measure S) [IsProbabilityMeasure μ] (n : ℕ) :
    Spec.Observations (Measure.pi fun _ : Fin n => μ) (fun i ω => ω i) μ where
  measurable i := measurable_pi_apply i
  law i := (measurePreserving_eval (fun _ : Fin n => μ) i).map_eq
  indep := iIndepFun_pi (X := fun _ ω => ω) fun _ => aemeasurable_id

/-- Observations of both distributions. -/
theorem exists_observations_two {S S' : Type} [MeasurableSpace S] [MeasurableSpace S'] (μ : Measure S) (ν : Measure S')
    [IsProbabilityMeasure μ] [IsProbabilityMeasure ν] (n m : ℕ) :
    Spec.Observations ((Measure.pi fun _ : Fin n => μ).prod (Measure.pi fun _ : Fin m => ν)) (fun i ω => ω.1 i) μ ∧
    Spec.Observations ((Measure.pi fun _ : Fin n => μ).prod (Measure.pi fun _ : Fin m => ν)) (fun i ω => ω.2 i) ν ∧
    ∀ (i : Fin n) (j : Fin m), IndepFun (fun ω : (Fin n → S) × (Fin m → S') => ω.1 i) (fun ω => ω.2 j)
      ((Measure.pi fun _ : Fin n => μ).prod (Measure.pi fun _ : Fin m => ν)) := by
  have hX := exists_observations μ n
  have hY := exists_observations ν m
  have mX (i : Fin n) : Measurable fun ω : (Fin n → S) × (Fin m → S') => ω.1 i := (hX.measurable i).comp measurable_fst
  have mY (i : Fin m) : Measurable fun ω : (Fin n → S) × (Fin m → S') => ω.2 i := (hY.measurable i).comp measurable_snd
  have lX (i : Fin n) : ((Measure.pi fun _ : Fin n => μ).prod (Measure.pi fun _ : Fin m => ν)).map (fun ω => ω.1 i) = μ := by
    have h := hX.law i
    rwa [← Measure.fst_prod (μ := Measure.pi fun _ : Fin n => μ) (ν := Measure.pi fun _ : Fin m => ν), Measure.fst,
      Measure.map_map (hX.measurable i) measurable_fst] at h
  have lY (i : Fin m) : ((Measure.pi fun _ : Fin n => μ).prod (Measure.pi fun _ : Fin m => ν)).map (fun ω => ω.2 i) = ν := by
    have h := hY.law i
    rwa [← Measure.snd_prod (μ := Measure.pi fun _ : Fin n => μ) (ν := Measure.pi fun _ : Fin m => ν), Measure.snd,
      Measure.map_map (hY.measurable i) measurable_snd] at h
  refine ⟨⟨mX, lX, ?_⟩, ⟨mY, lY, ?_⟩, fun i j => ?_⟩
  · rw [iIndepFun_iff_map_fun_eq_pi_map fun i => (mX i).aemeasurable]
    simp only [lX]
    exact Measure.fst_prod
  · rw [iIndepFun_iff_map_fun_eq_pi_map fun i => (mY i).aemeasurable]
    simp only [lY]
    exact Measure.snd_prod
  · exact indepFun_prod (hX.measurable i) (hY.measurable j)

/-- Five observations of two equal coins: the expectation is 1/4. -/
example : ∃ v : (Fin 5 → (Fin 1 → ℝ) × (Fin 1 → ℝ)) → ℝ,
    (∀ ω, (uDistanceCovarianceSqr stdEnv (npMat fun i => (ω i).1) (npMat fun i => (ω i).2) ⟨1, .enum .naive, .auto⟩).out
      = .ok (.fin (v ω))) ∧ ∫ ω, v ω ∂(Measure.pi fun _ : Fin 5 => coins) = 1 / 4 := by
  obtain ⟨v, h1, -, h2⟩ := C101_u_covariance (env := stdEnv) one_pos (by norm_num) (exists_observations coins 5) coins_moments
  exact ⟨v, fun ω => h1 ω _ _ _ rfl (supported_mat _ _ 1 zero_le_one), h2.trans dcovPop_coins⟩

/-- A coin has two values. -/
theorem coin_not_constant {a : ℝ} (ha : a ≠ 0) : ¬ ∃ c, ∀ᵐ x ∂(coin a), x = c := by
  rintro ⟨c, hc⟩
  have h2 : (2 : ENNReal)⁻¹ ≠ 0 := by simp
  rw [coin, fair, Measure.ae_ennreal_smul_measure_iff h2, ae_add_measure_iff, ae_dirac_eq, ae_dirac_eq] at hc
  have h := congrFun (hc.1.trans hc.2.symm) 0
  exact ha h.symm

theorem coin_mean_dist (a : ℝ) : ∫ x, ∫ x', Spec.dist 1 x x' ∂(coin a) ∂(coin a) = |a| / 2 := by
  simp only [coin, integral_fair, dist_one]
  norm_num

/-- Ten observations of two independent coins: the expectation of the estimate of the covariance is 9/400 instead of zero. -/
example : ∃ v : (Fin 10 → (Fin 1 → ℝ) × (Fin 1 → ℝ)) → ℝ,
    (∀ ω, (distanceCovarianceSqr stdEnv (npMat fun i => (ω i).1) (npMat fun i => (ω i).2) ⟨1, .enum .naive, .auto⟩).out
      = .ok (.fin (v ω))) ∧ ∫ ω, v ω ∂(Measure.pi fun _ : Fin 10 => (coin 1).prod (coin 1)) = 9 / 400 := by
  have i0 := integrable_fair (![0] : Fin 1 → ℝ) ![1] fun x => Spec.dist 1 x 0
  obtain ⟨v, h1, -, -, h2⟩ := C101_covariance_biased (env := stdEnv) one_pos (by norm_num)
    (exists_observations ((coin 1).prod (coin 1)) 10) ⟨i0.comp_fst _, i0.comp_snd _, i0.mul_prod i0⟩
    (indepFun_prod measurable_id measurable_id) (by
      rintro ⟨c, hc⟩
      refine coin_not_constant one_ne_zero ⟨c, ?_⟩
      have h := (Measure.ae_ae_of_ae_prod hc)
      exact h.mono fun x hx => hx.exists.choose_spec) (by
      rintro ⟨c, hc⟩
      refine coin_not_constant one_ne_zero ⟨c, ?_⟩
      exact (Measure.ae_ae_of_ae_prod hc).exists.choose_spec)
  refine ⟨v, fun ω => h1 ω _ _ _ rfl (supported_mat _ _ 1 zero_le_one), h2.trans ?_⟩
  have e1 : ∫ z, ∫ z', Spec.dist 1 z.1 z'.1 ∂((coin 1).prod (coin 1)) ∂((coin 1).prod (coin 1)) = 1 / 2 := by
    have h (z : (Fin 1 → ℝ) × (Fin 1 → ℝ)) : ∫ z', Spec.dist 1 z.1 z'.1 ∂((coin 1).prod (coin 1))
        = ∫ x, Spec.dist 1 z.1 x ∂(coin 1) := by
      rw [integral_fun_fst (fun x => Spec.dist 1 z.1 x), probReal_univ, one_smul]
    rw [integral_congr_ae (Eventually.of_forall h), integral_fun_fst fun x => ∫ x', Spec.dist 1 x x' ∂(coin 1), probReal_univ,
      one_smul, coin_mean_dist, abs_one]
  have e2 : ∫ z, ∫ z', Spec.dist 1 z.2 z'.2 ∂((coin 1).prod (coin 1)) ∂((coin 1).prod (coin 1)) = 1 / 2 := by
    have h (z : (Fin 1 → ℝ) × (Fin 1 → ℝ)) : ∫ z', Spec.dist 1 z.2 z'.2 ∂((coin 1).prod (coin 1))
        = ∫ x, Spec.dist 1 z.2 x ∂(coin 1) := by
      rw [integral_fun_snd (fun x => Spec.dist 1 z.2 x), probReal_univ, one_smul]
    rw [integral_congr_ae (Eventually.of_forall h), integral_fun_snd fun x => ∫ x', Spec.dist 1 x x' ∂(coin 1), probReal_univ,
      one_smul, coin_mean_dist, abs_one]
  rw [e1, e2]
  norm_num

/-- Five observations of a coin with the values 0 and 1 and four of a coin with the values 0 and 2. -/
example : ∃ v : (Fin 5 → Fin 1 → ℝ) × (Fin 4 → Fin 1 → ℝ) → ℝ,
    (∀ ω, (energyDistance stdEnv (npMat fun i => ω.1 i) (npMat fun i => ω.2 i) ⟨1, none, .enum .u⟩).out.map Scalar.val
      = .ok (.fin (v ω))) ∧
    ∫ ω, v ω ∂((Measure.pi fun _ : Fin 5 => coin 1).prod (Measure.pi fun _ : Fin 4 => coin 2)) = 1 / 2 := by
  obtain ⟨hX, hY, hi⟩ := exists_observations_two (coin 1) (coin 2) 5 4
  obtain ⟨v, h1, -, h2⟩ := C101_energy_u (env := stdEnv) (α := 1) one_pos (by norm_num) (by norm_num) hX hY hi
    (integrable_fair _ _ _) (integrable_fair _ _ _)
  exact ⟨v, fun ω => h1 ω _ _ _ rfl rfl (energyCall_mat _ _ (by norm_num) _), h2.trans energyPop_coin⟩

/-- The expectation of the V-statistic of the same samples is 17/20. -/
example : ∃ v : (Fin 5 → Fin 1 → ℝ) × (Fin 4 → Fin 1 → ℝ) → ℝ,
    (∀ ω, (energyDistance stdEnv (npMat fun i => ω.1 i) (npMat fun i => ω.2 i) ⟨1, none, .enum .v⟩).out.map Scalar.val
      = .ok (.fin (v ω))) ∧
    ∫ ω, v ω ∂((Measure.pi fun _ : Fin 5 => coin 1).prod (Measure.pi fun _ : Fin 4 => coin 2)) = 17 / 20 ∧
    ¬ ∃ c, ∀ᵐ x ∂(coin 1), x = c := by
  obtain ⟨hX, hY, hi⟩ := exists_observations_two (coin 1) (coin 2) 5 4
  obtain ⟨v, h1, -, h2, -⟩ := C101_energy_v (env := stdEnv) (α := 1) one_pos (by norm_num) (by norm_num) hX hY hi
    (integrable_fair _ _ _) (integrable_fair _ _ _)
  refine ⟨v, fun ω => h1 ω _ _ _ rfl rfl (energyCall_mat _ _ (by norm_num) _), ?_, coin_not_constant one_ne_zero⟩
  rw [h2, energyPop_coin, coin_mean_dist, coin_mean_dist]
  norm_num

end Dcor.Props

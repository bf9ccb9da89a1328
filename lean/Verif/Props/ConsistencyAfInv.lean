/-
Property C110: the affinely invariant distance correlation of a growing sample converges, and its limit is zero only for
independent variables.
-/
import Verif.Proofs.Whitening
import Verif.Props.AfInv
import Verif.Props.Characterization

namespace Dcor.Props

open Finset Matrix MeasureTheory ProbabilityTheory Filter Topology

variable {env : Env} {p q r s : ℕ} {Ω : Type*} {mΩ : MeasurableSpace Ω} {P : Measure Ω}

/-- C110: let the parts of `Z` have uncorrelated components with unit variance, and let the data be the images of the first
`n` observations under any affine maps `z ↦ z M + b` that can be inverted on their range, also ones into spaces of higher
dimension. With probability one, whatever eigendecompositions, methods, arrays and affine maps are used, the affinely
invariant distance correlations of the data tend to the distance correlation of the parts of `Z`. -/
theorem C110_white_images {Z : ℕ → Ω → (Fin r → ℝ) × (Fin s → ℝ)} {ν : Measure ((Fin r → ℝ) × (Fin s → ℝ))}
    [IsProbabilityMeasure ν] (hZ : Spec.Sample P Z ν) (hx : Integrable (fun z => Spec.dist 1 z.1 0 ^ 2) ν)
    (hy : Integrable (fun z => Spec.dist 1 z.2 0 ^ 2) ν) (hwx : Spec.PopWhite (ν.map Prod.fst))
    (hwy : Spec.PopWhite (ν.map Prod.snd)) (hvx : 0 < Spec.dcovPop 1 (twiceFst ν)) (hvy : 0 < Spec.dcovPop 1 (twiceSnd ν)) :
    ∀ᵐ ω ∂P, ∀ (eg : Eigh) {p q : ℕ} (M : Matrix (Fin r) (Fin p) ℝ) (M' : Matrix (Fin p) (Fin r) ℝ) (b : Fin p → ℝ)
      (N : Matrix (Fin s) (Fin q) ℝ) (N' : Matrix (Fin q) (Fin s) ℝ) (c : Fin q → ℝ), M * M' = 1 → N * N' = 1 →
      ∀ (x y : ℕ → Arr) (m : ℕ → MethodLike) (cm : ℕ → CompileMode),
      (∀ᶠ n in atTop, AfSupported env (x n) (y n) (m n) (cm n) (affineRows (fun i : Fin n => (Z i ω).1) M b)
        (affineRows (fun i : Fin n => (Z i ω).2) N c)) →
      ReturnsTo atTop (fun n => (distanceCorrelationAfInvSqr eg env (x n) (y n) (m n) (cm n)).out)
        (Spec.dcovPop 1 ν / Real.sqrt (Spec.dcovPop 1 (twiceFst ν) * Spec.dcovPop 1 (twiceSnd ν))) ∧
      ReturnsTo atTop (fun n => (distanceCorrelationAfInv eg env (x n) (y n) (m n) (cm n)).out)
        (Real.sqrt (Spec.dcovPop 1 ν
          / Real.sqrt (Spec.dcovPop 1 (twiceFst ν) * Spec.dcovPop 1 (twiceSnd ν)))) := by
  have mx : Measurable fun z : (Fin r → ℝ) × (Fin s → ℝ) => (z.1, z.1) := by fun_prop
  have my : Measurable fun z : (Fin r → ℝ) × (Fin s → ℝ) => (z.2, z.2) := by fun_prop
  have hZx : Spec.Sample P (fun i ω => ((Z i ω).1, (Z i ω).1)) (twiceFst ν) := hZ.comp mx
  have hZy : Spec.Sample P (fun i ω => ((Z i ω).2, (Z i ω).2)) (twiceSnd ν) := hZ.comp my
  have _ : IsProbabilityMeasure (twiceFst ν) := Measure.isProbabilityMeasure_map mx.aemeasurable
  have _ : IsProbabilityMeasure (twiceSnd ν) := Measure.isProbabilityMeasure_map my.aemeasurable
  have c : ∀ {t : ℕ}, Continuous fun x : Fin t → ℝ => Spec.dist 1 x 0 ^ 2 := by
    intro t
    simp only [Consistency.dist_zero]
    exact (Consistency.vec_continuous.norm.rpow_const fun _ => Or.inr zero_le_one).pow 2
  have ex : (twiceFst ν).map Prod.fst = ν.map Prod.fst ∧ (twiceFst ν).map Prod.snd = ν.map Prod.fst := by
    unfold twiceFst
    rw [Measure.map_map measurable_fst mx, Measure.map_map measurable_snd mx]
    exact ⟨rfl, rfl⟩
  have ey : (twiceSnd ν).map Prod.fst = ν.map Prod.snd ∧ (twiceSnd ν).map Prod.snd = ν.map Prod.snd := by
    unfold twiceSnd
    rw [Measure.map_map measurable_fst my, Measure.map_map measurable_snd my]
    exact ⟨rfl, rfl⟩
  have l1 := Consistency.dcovSqr_scaled_law stdEigh hZ hx hy hwx hwy
  have l2 := Consistency.dcovSqr_scaled_law stdEigh hZx
    ((integrable_map_measure (c.comp continuous_fst).aestronglyMeasurable mx.aemeasurable).2 hx)
    ((integrable_map_measure (c.comp continuous_snd).aestronglyMeasurable mx.aemeasurable).2 hx)
    (by rw [ex.1]; exact hwx) (by rw [ex.2]; exact hwx)
  have l3 := Consistency.dcovSqr_scaled_law stdEigh hZy
    ((integrable_map_measure (c.comp continuous_fst).aestronglyMeasurable my.aemeasurable).2 hy)
    ((integrable_map_measure (c.comp continuous_snd).aestronglyMeasurable my.aemeasurable).2 hy)
    (by rw [ey.1]; exact hwy) (by rw [ey.2]; exact hwy)
  filter_upwards [l1, l2, l3] with ω h1 h2 h3
  intro eg p q M M' b N N' c hM hN x y m cm hs
  have hr := Consistency.ratio_tendsto_ratio hvx hvy h1 h2 h3
  have key : ∀ n : ℕ, 2 ≤ n → Spec.dcorSqr (Spec.distMat 1 (afInvRows eg (affineRows (fun i : Fin n => (Z i ω).1) M b)))
      (Spec.distMat 1 (afInvRows eg (affineRows (fun i : Fin n => (Z i ω).2) N c)))
      = Spec.ratio (Spec.dcovSqr (Consistency.scaledMat stdEigh fun i : Fin n => (Z i ω).1)
          (Consistency.scaledMat stdEigh fun i : Fin n => (Z i ω).2))
        (Spec.dcovSqr (Consistency.scaledMat stdEigh fun i : Fin n => (Z i ω).1)
          (Consistency.scaledMat stdEigh fun i : Fin n => (Z i ω).1))
        (Spec.dcovSqr (Consistency.scaledMat stdEigh fun i : Fin n => (Z i ω).2)
          (Consistency.scaledMat stdEigh fun i : Fin n => (Z i ω).2)) := fun n hn => by
    rw [afInv_distMat stdEigh eg hn _ M M' hM b, afInv_distMat stdEigh eg hn _ N N' hN c,
      Consistency.dcorSqr_scaled stdEigh hn]
    rfl
  refine ⟨⟨_, ?_, hr⟩, ⟨_, ?_, (Real.continuous_sqrt.tendsto _).comp hr⟩⟩
  · filter_upwards [hs] with n hs
    rw [afInvSqr_ok eg hs, key n hs.two]
  · filter_upwards [hs] with n hs
    rw [afInv_ok eg hs, key n hs.two]
    rfl

theorem affine_measurable (b : Fin p → ℝ) (M : Matrix (Fin p) (Fin r) ℝ) :
    Measurable fun x : Fin p → ℝ => (fun k => x k - b k) ᵥ* M := by
  refine measurable_pi_lambda _ fun a => ?_
  simp only [vecMul, dotProduct]
  fun_prop

theorem affine_sq_integrable {S : Type*} [MeasurableSpace S] {μ : Measure S} [IsProbabilityMeasure μ] {f : S → Fin p → ℝ}
    (hf : Measurable f) (h : Integrable (fun z => Spec.dist 1 (f z) 0 ^ 2) μ) (b : Fin p → ℝ)
    (M : Matrix (Fin p) (Fin r) ℝ) :
    Integrable (fun z => Spec.dist 1 ((fun k => f z k - b k) ᵥ* M) 0 ^ 2) μ := by
  have hc : Continuous fun x : Fin p → ℝ => Spec.dist 1 x 0 ^ 2 := by
    simp only [Consistency.dist_zero]
    exact (Consistency.vec_continuous.norm.rpow_const fun _ => Or.inr zero_le_one).pow 2
  have _ : IsProbabilityMeasure (μ.map f) := Measure.isProbabilityMeasure_map hf.aemeasurable
  have hm : Integrable (fun x => Spec.dist 1 x 0 ^ 2) (μ.map f) :=
    (integrable_map_measure hc.aestronglyMeasurable hf.aemeasurable).2 h
  have e : ∀ x : Fin p → ℝ, Spec.dist 1 ((fun k => x k - b k) ᵥ* M) 0 ^ 2
      = ∑ a, ∑ k, ∑ l, (x k - b k) * (x l - b l) * (M k a * M l a) := by
    intro x
    rw [Spec.dist, Real.rpow_one, Real.sq_sqrt (sum_nonneg fun _ _ => sq_nonneg _)]
    refine sum_congr rfl fun a _ => ?_
    simp only [Pi.zero_apply, sub_zero, vecMul, dotProduct, sq]
    rw [sum_mul_sum]
    exact sum_congr rfl fun k _ => sum_congr rfl fun l _ => by ring
  have hi : Integrable (fun x : Fin p → ℝ => Spec.dist 1 ((fun k => x k - b k) ᵥ* M) 0 ^ 2) (μ.map f) := by
    simp only [e]
    exact integrable_finsetSum _ fun a _ => integrable_finsetSum _ fun k _ => integrable_finsetSum _ fun l _ =>
      (Consistency.centred_mul_integrable hm b k l).mul_const _
  exact hi.comp_measurable hf

/-- C110: with probability one the affinely invariant distance correlations of the first `n` observations have a limit
between zero and one, which is zero exactly for independent variables. The variables are square integrable and have more
than one value; nothing else is assumed about their distribution, so that the covariance matrices may be singular. -/
theorem C110_consistent {Z : ℕ → Ω → (Fin p → ℝ) × (Fin q → ℝ)} {μ : Measure ((Fin p → ℝ) × (Fin q → ℝ))}
    [IsProbabilityMeasure μ] (hZ : Spec.Sample P Z μ) (hx : Integrable (fun z => Spec.dist 1 z.1 0 ^ 2) μ)
    (hy : Integrable (fun z => Spec.dist 1 z.2 0 ^ 2) μ) (hcx : ¬ ∃ c, ∀ᵐ z ∂μ, z.1 = c) (hcy : ¬ ∃ c, ∀ᵐ z ∂μ, z.2 = c) :
    ∃ L, 0 ≤ L ∧ L ≤ 1 ∧ (L = 0 ↔ IndepFun Prod.fst Prod.snd μ) ∧
    ∀ᵐ ω ∂P, ∀ (eg : Eigh) (x y : ℕ → Arr) (m : ℕ → MethodLike) (cm : ℕ → CompileMode),
      (∀ᶠ n in atTop, AfSupported env (x n) (y n) (m n) (cm n) (fun i : Fin n => (Z i ω).1)
        (fun i : Fin n => (Z i ω).2)) →
      ReturnsTo atTop (fun n => (distanceCorrelationAfInvSqr eg env (x n) (y n) (m n) (cm n)).out) L ∧
      ReturnsTo atTop (fun n => (distanceCorrelationAfInv eg env (x n) (y n) (m n) (cm n)).out) (Real.sqrt L) := by
  have hc : ∀ {t : ℕ}, Continuous fun x : Fin t → ℝ => Spec.dist 1 x 0 ^ 2 := by
    intro t
    simp only [Consistency.dist_zero]
    exact (Consistency.vec_continuous.norm.rpow_const fun _ => Or.inr zero_le_one).pow 2
  have _ : IsProbabilityMeasure (μ.map Prod.fst) := Measure.isProbabilityMeasure_map measurable_fst.aemeasurable
  have _ : IsProbabilityMeasure (μ.map Prod.snd) := Measure.isProbabilityMeasure_map measurable_snd.aemeasurable
  obtain ⟨r, M, M', b, hM, hwx, hbx⟩ := Consistency.exists_whitening (μ := μ.map Prod.fst)
    ((integrable_map_measure hc.aestronglyMeasurable measurable_fst.aemeasurable).2 hx)
  obtain ⟨s, N, N', c, hN, hwy, hby⟩ := Consistency.exists_whitening (μ := μ.map Prod.snd)
    ((integrable_map_measure hc.aestronglyMeasurable measurable_snd.aemeasurable).2 hy)
  have mf := affine_measurable b M'
  have mg := affine_measurable c N'
  obtain ⟨f, hf⟩ : ∃ f : (Fin p → ℝ) → Fin r → ℝ, f = fun x => (fun k => x k - b k) ᵥ* M' := ⟨_, rfl⟩
  obtain ⟨g, hg⟩ : ∃ g : (Fin q → ℝ) → Fin s → ℝ, g = fun x => (fun k => x k - c k) ᵥ* N' := ⟨_, rfl⟩
  rw [← hf] at mf hwx
  rw [← hg] at mg hwy
  have mfg : Measurable fun z : (Fin p → ℝ) × (Fin q → ℝ) => (f z.1, g z.2) :=
    (mf.comp measurable_fst).prodMk (mg.comp measurable_snd)
  have hbx' : ∀ᵐ z ∂μ, z.1 = fun k => (f z.1 ᵥ* M) k + b k := by
    rw [hf]
    exact ae_of_ae_map measurable_fst.aemeasurable hbx
  have hby' : ∀ᵐ z ∂μ, z.2 = fun k => (g z.2 ᵥ* N) k + c k := by
    rw [hg]
    exact ae_of_ae_map measurable_snd.aemeasurable hby
  obtain ⟨ν, hν⟩ : ∃ ν : Measure ((Fin r → ℝ) × (Fin s → ℝ)), ν = μ.map fun z => (f z.1, g z.2) := ⟨_, rfl⟩
  have _ : IsProbabilityMeasure ν := by
    rw [hν]
    exact Measure.isProbabilityMeasure_map mfg.aemeasurable
  have hW : Spec.Sample P (fun i ω => (f (Z i ω).1, g (Z i ω).2)) ν := by
    rw [hν]
    exact hZ.comp mfg
  have hx' : Integrable (fun z => Spec.dist 1 z.1 0 ^ 2) ν := by
    rw [hν]
    refine (integrable_map_measure (hc.comp continuous_fst).aestronglyMeasurable mfg.aemeasurable).2 ?_
    rw [hf]
    exact affine_sq_integrable measurable_fst hx b M'
  have hy' : Integrable (fun z => Spec.dist 1 z.2 0 ^ 2) ν := by
    rw [hν]
    refine (integrable_map_measure (hc.comp continuous_snd).aestronglyMeasurable mfg.aemeasurable).2 ?_
    rw [hg]
    exact affine_sq_integrable measurable_snd hy c N'
  have hcx' : ¬ ∃ c, ∀ᵐ z ∂ν, z.1 = c := by
    rintro ⟨d, hd⟩
    rw [hν] at hd
    refine hcx ⟨fun k => (d ᵥ* M) k + b k, ?_⟩
    filter_upwards [ae_of_ae_map mfg.aemeasurable hd, hbx'] with z h1 h2
    rw [h2, h1]
  have hcy' : ¬ ∃ c, ∀ᵐ z ∂ν, z.2 = c := by
    rintro ⟨d, hd⟩
    rw [hν] at hd
    refine hcy ⟨fun k => (d ᵥ* N) k + c k, ?_⟩
    filter_upwards [ae_of_ae_map mfg.aemeasurable hd, hby'] with z h1 h2
    rw [h2, h1]
  have hwx' : Spec.PopWhite (ν.map Prod.fst) := by
    rw [hν, Measure.map_map measurable_fst mfg]
    rw [Measure.map_map mf measurable_fst] at hwx
    exact hwx
  have hwy' : Spec.PopWhite (ν.map Prod.snd) := by
    rw [hν, Measure.map_map measurable_snd mfg]
    rw [Measure.map_map mg measurable_snd] at hwy
    exact hwy
  have hind : IndepFun Prod.fst Prod.snd ν ↔ IndepFun Prod.fst Prod.snd μ := by
    have mf' : Measurable fun z : (Fin p → ℝ) × (Fin q → ℝ) => f z.1 := mf.comp measurable_fst
    have mg' : Measurable fun z : (Fin p → ℝ) × (Fin q → ℝ) => g z.2 := mg.comp measurable_snd
    have e : IndepFun Prod.fst Prod.snd ν ↔ IndepFun (fun z => f z.1) (fun z => g z.2) μ := by
      rw [indepFun_iff_map_prod_eq_prod_map_map measurable_fst.aemeasurable measurable_snd.aemeasurable,
        indepFun_iff_map_prod_eq_prod_map_map mf'.aemeasurable mg'.aemeasurable,
        hν, Measure.map_map measurable_fst mfg, Measure.map_map measurable_snd mfg, Measure.map_map (by fun_prop) mfg]
      rfl
    rw [e]
    constructor
    · intro h
      have m1 : Measurable fun w : Fin r → ℝ => fun k => (w ᵥ* M) k + b k := by
        refine measurable_pi_lambda _ fun a => ?_
        simp only [vecMul, dotProduct]
        fun_prop
      have m2 : Measurable fun w : Fin s → ℝ => fun k => (w ᵥ* N) k + c k := by
        refine measurable_pi_lambda _ fun a => ?_
        simp only [vecMul, dotProduct]
        fun_prop
      exact (h.comp m1 m2).congr (hbx'.mono fun z h => h.symm) (hby'.mono fun z h => h.symm)
    · intro h
      exact h.comp mf mg
  have hm := Consistency.moments_of_sq zero_le_one hx' hy'
  have vx := variance_pos one_pos one_lt_two hx' hcx'
  have vy := variance_pos_snd one_pos one_lt_two hy' hcy'
  have hs := Real.sqrt_pos.2 (mul_pos vx vy)
  refine ⟨Spec.dcovPop 1 ν / Real.sqrt (Spec.dcovPop 1 (twiceFst ν) * Spec.dcovPop 1 (twiceSnd ν)),
    div_nonneg (C99_dcov_nonneg one_pos one_le_two hm) (Real.sqrt_nonneg _), ?_, ?_, ?_⟩
  · rw [div_le_one hs]
    exact Real.le_sqrt_of_sq_le (C100_cauchy one_pos hx' hy')
  · rw [div_eq_zero_iff, or_iff_left hs.ne', C100_dcov_zero one_pos one_lt_two hm, hind]
  · have a1 : ∀ᵐ ω ∂P, ∀ i, (Z i ω).1 = fun k => (f (Z i ω).1 ᵥ* M) k + b k := by
      rw [ae_all_iff]
      intro i
      rw [← hZ.law i] at hbx'
      exact ae_of_ae_map (hZ.measurable i).aemeasurable hbx'
    have a2 : ∀ᵐ ω ∂P, ∀ i, (Z i ω).2 = fun k => (g (Z i ω).2 ᵥ* N) k + c k := by
      rw [ae_all_iff]
      intro i
      rw [← hZ.law i] at hby'
      exact ae_of_ae_map (hZ.measurable i).aemeasurable hby'
    filter_upwards [C110_white_images (env := env) hW hx' hy' hwx' hwy' vx vy, a1, a2] with ω h h1 h2
    intro eg x y m cm hs
    refine h eg M M' b N N' c hM hN x y m cm (hs.mono fun n hn => ?_)
    have e1 : affineRows (fun i : Fin n => f (Z i ω).1) M b = fun i : Fin n => (Z i ω).1 := by
      funext i
      exact (h1 i).symm
    have e2 : affineRows (fun i : Fin n => g (Z i ω).2) N c = fun i : Fin n => (Z i ω).2 := by
      funext i
      exact (h2 i).symm
    simp only [e1, e2]
    exact hn

/-! ### Examples -/

/-- A fair coin with the sides 1 and -1, and a copy of it. -/
noncomputable abbrev signs : Measure ((Fin 1 → ℝ) × (Fin 1 → ℝ)) := fair (![1], ![1]) (![-1], ![-1])

theorem dcovPop_signs : Spec.dcovPop 1 signs = 1 := by
  simp only [Spec.dcovPop, integral_fair, dist_one]
  norm_num

theorem twice_signs : twiceFst signs = signs ∧ twiceSnd signs = signs :=
  ⟨map_fair (by fun_prop) _ _, map_fair (by fun_prop) _ _⟩

theorem signs_white : Spec.PopWhite (signs.map Prod.fst) ∧ Spec.PopWhite (signs.map Prod.snd) := by
  rw [map_fair measurable_fst, map_fair measurable_snd]
  refine ⟨fun k l => ?_, fun k l => ?_⟩ <;>
  · rw [Subsingleton.elim k 0, Subsingleton.elim l 0]
    simp only [Spec.popCov, integral_fair]
    norm_num

/-- Two equal coins, the first one recorded twice, in different units, so that its covariance matrix is singular: the
affinely invariant distance correlation tends to 1. -/
example : ∀ᵐ ω ∂(Measure.infinitePi fun _ : ℕ => signs),
    ReturnsTo atTop (fun n => (distanceCorrelationAfInvSqr stdEigh stdEnv
      (npMat (affineRows (fun i : Fin n => (ω i).1) !![1, 5] ![0, 3]))
      (npMat (affineRows (fun i : Fin n => (ω i).2) !![2] ![1])) (.enum .naive)).out) 1 := by
  filter_upwards [C110_white_images (env := stdEnv) (exists_sample signs) (integrable_fair _ _ _) (integrable_fair _ _ _)
    signs_white.1 signs_white.2 (by rw [twice_signs.1, dcovPop_signs]; norm_num)
    (by rw [twice_signs.2, dcovPop_signs]; norm_num)] with ω h
  have := (h stdEigh !![1, 5] !![1; 0] ![0, 3] !![2] !![1 / 2] ![1]
    (by ext i j; fin_cases i; fin_cases j; simp [Matrix.mul_apply])
    (by ext i j; fin_cases i; fin_cases j; simp [Matrix.mul_apply]) _ _ (fun _ => .enum .naive) (fun _ => .auto)
    ((eventually_ge_atTop 2).mono fun n hn => afSupported_mat hn _ _)).1
  rw [twice_signs.1, twice_signs.2, dcovPop_signs] at this
  norm_num at this
  exact this

/-- Equal coins are dependent, and the limit is positive. -/
example : ∃ L, 0 < L ∧ L ≤ 1 ∧ ∀ᵐ ω ∂(Measure.infinitePi fun _ : ℕ => coins),
    ReturnsTo atTop (fun n => (distanceCorrelationAfInvSqr stdEigh stdEnv (npMat fun i : Fin n => (ω i).1)
      (npMat fun i : Fin n => (ω i).2) (.enum .naive)).out) L := by
  obtain ⟨L, h0, h1, h2, h3⟩ := C110_consistent (env := stdEnv) (exists_sample coins)
    (integrable_fair _ _ _) (integrable_fair _ _ _) (by
      rw [← C100_variance_zero one_pos one_lt_two (integrable_fair _ _ _), twice_coins.1, dcovPop_coins]
      norm_num) (by
      rw [← C100_variance_zero_snd one_pos one_lt_two (integrable_fair _ _ _), twice_coins.2, dcovPop_coins]
      norm_num)
  refine ⟨L, lt_of_le_of_ne h0 fun h => coins_dep (h2.1 h.symm), h1, ?_⟩
  filter_upwards [h3] with ω h
  exact (h stdEigh _ _ (fun _ => .enum .naive) (fun _ => .auto)
    ((eventually_ge_atTop 2).mono fun n hn => afSupported_mat hn _ _)).1

end Dcor.Props

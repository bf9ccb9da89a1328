/-
Properties C31-C35, C54: energy distance.
-/
import Verif.Proofs.Energy
import Verif.Proofs.EnergySpec
import Verif.Proofs.Warnings
import Verif.Proofs.Api
import Verif.Props.Witness

namespace Dcor.Props

open Finset

variable {n m p q : ℕ} {env : Env} {x y : Arr} {o : EnergyOpts} {X : Fin n → Fin p → ℝ}
  {Y : Fin m → Fin p → ℝ}

/-- Two NumPy samples of the same dimension. -/
theorem energyCall_mat {n m p : ℕ} (v : Fin n → Fin p → ℝ) (w : Fin m → Fin p → ℝ) {α : ℝ}
    (hα : 0 ≤ α) (s : EstLike) : EnergyCall (npMat v) (npMat w) ⟨α, none, s⟩ v w :=
  ⟨npMat_holds v, npMat_holds w, rfl, hα, fun h => by simp [npMat] at h, Iff.rfl⟩

/-! ### C31 -/

/-- C31: the V-statistic is a non-negative number. -/
theorem C31_nonneg (h : EnergyCall x y o X Y) (hs : o.stat = .enum .v) (hn : 0 < n) (hm : 0 < m)
    (he : o.exponent ≤ 2) :
    ∃ e k, (energyDistance env x y o).out = .ok ⟨.fin e, k⟩ ∧ 0 ≤ e := by
  refine ⟨_, energyKind x, ?_, Spec.energyV_nonneg hn hm X Y h.exponent_nonneg he⟩
  rw [energyDistance_v h (by rw [hs]; rfl) hn hm]

/-- The range of exponents cannot be dropped: with exponent 4 the energy distance between the samples
`0, 0, 3` and `1, 1, 1` is negative. -/
theorem C31_negative_for_exponent_four :
    ∃ e k, (energyDistance stdEnv (npMat ![![0], ![0], ![(3 : ℝ)]]) (npMat ![![1], ![1], ![(1 : ℝ)]])
      ⟨4, none, .enum .v⟩).out = .ok ⟨.fin e, k⟩ ∧ e < 0 := by
  have h := energyCall_mat ![![0], ![0], ![(3 : ℝ)]] ![![1], ![1], ![(1 : ℝ)]] (α := 4)
    (by norm_num) (.enum .v)
  refine ⟨_, _, by rw [energyDistance_v (env := stdEnv) h rfl (by norm_num) (by norm_num)], ?_⟩
  have hd : ∀ u v : Fin 1 → ℝ, Spec.dist 4 u v = (u 0 - v 0) ^ 4 := by
    intro u v
    rw [Spec.dist_eq_sqDist_rpow, Spec.sqDist]
    have : (4 : ℝ) / 2 = ((2 : ℕ) : ℝ) := by norm_num
    rw [this, Real.rpow_natCast, Fin.sum_univ_one]
    ring
  simp only [Spec.energyV, Spec.crossMean, hd]
  simp [Fin.sum_univ_succ]
  norm_num

/-- C31: both estimators are symmetric, including the warnings issued. -/
theorem C31_symmetric (h : EnergyCall x y o X Y) :
    energyDistance env x y o = energyDistance env y x o := by
  have h' : EnergyCall y x o Y X :=
    ⟨h.hy, h.hx, h.mean, h.exponent_nonneg, fun e => h.decimal e.symm, h.decimal_iff.symm⟩
  have hk : energyKind x = energyKind y := by
    unfold energyKind
    simp only [h.decimal_iff]
  cases hs : o.stat.resolve env with
  | ok s =>
    rw [energyDistance_eq h hs, energyDistance_eq h' hs, hk]
    have e : (∑ i, ∑ j, Spec.dist o.exponent (X i) (Y j))
        = ∑ j, ∑ i, Spec.dist o.exponent (Y j) (X i) := by
      rw [sum_comm]
      exact sum_congr rfl fun i _ => sum_congr rfl fun j _ => Spec.dist_comm _ _ _
    rw [e, mul_comm (n : ℝ)]
    congr 3
    show _ + _ + _ = _ + _ + _
    exact add_right_comm _ _ _
  | error e =>
    have aux : ∀ {x y : Arr} {n m : ℕ} {X : Fin n → Fin p → ℝ} {Y : Fin m → Fin p → ℝ},
        EnergyCall x y o X Y → energyDistance env x y o = ⟨energyWarns o.exponent, .error e⟩ := by
      intro x y n m X Y h
      unfold energyDistance
      rw [h.hx.to2d, h.hy.to2d, PyM.lift_ok_bind, PyM.lift_ok_bind, checkValidEnergyExponent_eq,
        PyM.mk_ok_bind]
      dsimp only
      rw [pdist_eq env _ _ X _ fun e => h.decimal (Or.inl e),
        pdist_eq env _ _ Y _ fun e => h.decimal (Or.inr e), PyM.lift_ok_bind, PyM.lift_ok_bind]
      obtain ⟨M, hM, -⟩ := cdist_mean (env := env) (commonNs x.ns y.ns) x.dtype y.dtype X Y
        o.exponent h.decimal (decimalClash_false h.decimal_iff)
      rw [hM, PyM.lift_ok_bind]
      unfold energyFromMatrices
      rw [hs]
      simp [PyM.lift]
    rw [aux h, aux h']

/-- C31: the V-statistic between a sample and a reordering of it is zero, for every exponent. -/
theorem C31_zero_for_reordering (σ : Equiv.Perm (Fin n))
    (h : EnergyCall x y o X (fun i => X (σ i))) (hs : o.stat = .enum .v) (hn : 0 < n) :
    ∃ k, (energyDistance env x y o).out = .ok ⟨.fin 0, k⟩ := by
  refine ⟨energyKind x, ?_⟩
  rw [energyDistance_v h (by rw [hs]; rfl) hn hn]
  have e1 : Spec.crossMean o.exponent X (fun i => X (σ i)) = Spec.crossMean o.exponent X X := by
    unfold Spec.crossMean
    congr 1
    exact sum_congr rfl fun i _ => Equiv.sum_comp σ fun j => Spec.dist o.exponent (X i) (X j)
  have e2 : Spec.crossMean o.exponent (fun i => X (σ i)) (fun i => X (σ i))
      = Spec.crossMean o.exponent X X := by
    unfold Spec.crossMean
    congr 1
    rw [Equiv.sum_comp σ fun i => ∑ j, Spec.dist o.exponent (X i) (X (σ j))]
    exact sum_congr rfl fun i _ => Equiv.sum_comp σ fun j => Spec.dist o.exponent (X i) (X j)
  simp only [Spec.energyV, e1, e2]
  congr 3
  ring

example := C31_nonneg (env := stdEnv) (energyCall_mat ![![0, 1], ![2, 5], ![(1 : ℝ), 1]]
  ![![3, 1], ![(1 : ℝ), 1]] (α := 3 / 2) (by norm_num) (.enum .v)) rfl (by norm_num) (by norm_num)
  (by norm_num)
example := C31_symmetric (env := stdEnv) (energyCall_mat ![![0, 1], ![2, 5], ![(1 : ℝ), 1]]
  ![![3, 1], ![(1 : ℝ), 1]] (α := 3 / 2) (by norm_num) (.name "u"))
example := C31_zero_for_reordering (env := stdEnv) (Equiv.swap 0 2)
  (energyCall_mat ![![0, 1], ![2, 5], ![(1 : ℝ), 1]] _ (α := 3 / 2) (by norm_num) (.enum .v)) rfl
  (by norm_num)

/-! ### C54 -/

open Classical in
/-- The empirical distributions of the two samples coincide: every point has the same relative
frequency in both, `m · #{i | X_i = z} = n · #{j | Y_j = z}`. -/
def SameEmpirical (X : Fin n → Fin p → ℝ) (Y : Fin m → Fin p → ℝ) : Prop :=
  ∀ z, m * (univ.filter fun i => X i = z).card = n * (univ.filter fun j => Y j = z).card

open Classical in
/-- C54: for exponents in `(0, 2)` the V-statistic is zero exactly if the samples have the same
empirical distribution. -/
theorem C54_zero_iff_same_distribution (h : EnergyCall x y o X Y) (hs : o.stat = .enum .v)
    (hn : 0 < n) (hm : 0 < m) (he : 0 < o.exponent) (he2 : o.exponent < 2) :
    (∃ k, (energyDistance env x y o).out = .ok ⟨.fin 0, k⟩) ↔ SameEmpirical X Y := by
  have hn' : (n : ℝ) ≠ 0 := by positivity
  have hm' : (m : ℝ) ≠ 0 := by positivity
  rw [energyDistance_v h (by rw [hs]; rfl) hn hm]
  have key : Spec.energyV o.exponent X Y = 0 ↔ SameEmpirical X Y := by
    rw [Spec.energyV_eq_zero_iff hn hm X Y he he2]
    refine forall_congr' fun z => ?_
    have e1 : ∑ i, Spec.ind X z i = ((univ.filter fun i => X i = z).card : ℝ) := by
      unfold Spec.ind
      rw [sum_boole]
    have e2 : ∑ i, Spec.ind Y z i = ((univ.filter fun i => Y i = z).card : ℝ) := by
      unfold Spec.ind
      rw [sum_boole]
    have e3 : ∀ a b : ℕ, (a : ℝ) / n = (b : ℝ) / m ↔ m * a = n * b := by
      intro a b
      rw [div_eq_div_iff hn' hm']
      constructor
      · intro hh
        have : (m : ℝ) * a = n * b := by linarith
        exact_mod_cast this
      · intro hh
        have : (m : ℝ) * a = n * b := by exact_mod_cast hh
        linarith
    rw [e1, e2]
    exact e3 _ _
  rw [← key]
  simp

example := C54_zero_iff_same_distribution (env := stdEnv) (energyCall_mat ![![0], ![(1 : ℝ)]]
  ![![0], ![0], ![1], ![(1 : ℝ)]] (α := 1) (by norm_num) (.enum .v)) rfl (by norm_num) (by norm_num)
  one_pos one_lt_two

/-- Equal and different empirical distributions: both sides of C54 occur. -/
example : SameEmpirical (n := 1) (m := 2) (fun _ _ => 0 : Fin 1 → Fin 1 → ℝ) (fun _ _ => 0) := by
  intro z
  by_cases h : (fun _ => 0 : Fin 1 → ℝ) = z <;> simp [h]
example : ¬ SameEmpirical (n := 1) (m := 1) (fun _ _ => 0 : Fin 1 → Fin 1 → ℝ) (fun _ _ => 1) := by
  intro h
  have := h (fun _ => 0)
  have hne : ¬ (fun _ => (1 : ℝ) : Fin 1 → ℝ) = fun _ => 0 := fun e => by
    simpa using congrFun e 0
  simp [hne] at this

/-! ### C32 -/

/-- C32: the U-statistic averages over the pairs of different observations. -/
theorem C32_u_statistic (h : EnergyCall x y o X Y) (hs : o.stat = .enum .u) (hn : 2 ≤ n)
    (hm : 2 ≤ m) :
    ∃ k, (energyDistance env x y o).out = .ok ⟨.fin (
      2 * ((∑ i, ∑ j, Spec.dist o.exponent (X i) (Y j)) / (n * m))
      - (∑ i, ∑ j ∈ univ.filter (· ≠ i), Spec.dist o.exponent (X i) (X j)) / (n * (n - 1))
      - (∑ i, ∑ j ∈ univ.filter (· ≠ i), Spec.dist o.exponent (Y i) (Y j)) / (m * (m - 1))), k⟩ := by
  refine ⟨energyKind x, ?_⟩
  rw [energyDistance_u h (by rw [hs]; rfl) hn hm]
  rfl

/-- C32: the V-statistic averages over all pairs, including the zero self distances; it exceeds the
U-statistic by the average distance within each sample divided by its size. -/
theorem C32_u_le_v {ou ov : EnergyOpts} (hu : EnergyCall x y ou X Y) (hv : EnergyCall x y ov X Y)
    (he : ou.exponent = ov.exponent) (hpos : 0 < ou.exponent) (hsu : ou.stat = .enum .u)
    (hsv : ov.stat = .enum .v) (hn : 2 ≤ n) (hm : 2 ≤ m) :
    ∃ eu ev k, (energyDistance env x y ou).out = .ok ⟨.fin eu, k⟩ ∧
      (energyDistance env x y ov).out = .ok ⟨.fin ev, k⟩ ∧ eu ≤ ev ∧
      ev - eu
        = (∑ i, ∑ j ∈ univ.filter (· ≠ i), Spec.dist ou.exponent (X i) (X j)) / (n * (n - 1)) / n
        + (∑ i, ∑ j ∈ univ.filter (· ≠ i), Spec.dist ou.exponent (Y i) (Y j)) / (m * (m - 1)) / m := by
  have hd : Spec.energyV ov.exponent X Y - Spec.energyU ou.exponent X Y
      = Spec.pairMean ou.exponent X / n + Spec.pairMean ou.exponent Y / m := by
    unfold Spec.energyV Spec.energyU
    rw [← he, Spec.crossMean_self hn hpos, Spec.crossMean_self hm hpos]
    ring
  refine ⟨_, _, energyKind x, ?_, ?_, ?_, hd⟩
  · rw [energyDistance_u hu (by rw [hsu]; rfl) hn hm]
  · rw [energyDistance_v hv (by rw [hsv]; rfl) (by omega) (by omega)]
  · have h1 := Spec.pairMean_nonneg hn ou.exponent X
    have h2 := Spec.pairMean_nonneg hm ou.exponent Y
    have : 0 ≤ Spec.pairMean ou.exponent X / n + Spec.pairMean ou.exponent Y / m := by positivity
    linarith

/-- C32: a sample with a single observation has no such pair; the U-statistic is then NaN (and no
exception is raised). -/
theorem C32_single_observation_nan (h : EnergyCall x y o X Y) (hs : o.stat = .enum .u)
    (hsmall : n ≤ 1 ∨ m ≤ 1) :
    ∃ k, (energyDistance env x y o).out = .ok ⟨.nan, k⟩ := by
  refine ⟨energyKind x, ?_⟩
  rw [energyDistance_nan h (s := .u) (by rw [hs]; rfl) (Or.inr (Or.inr ⟨rfl, hsmall⟩))]

example := C32_u_statistic (env := stdEnv) (energyCall_mat ![![0, 1], ![2, 5], ![(1 : ℝ), 1]]
  ![![3, 1], ![(1 : ℝ), 1]] (α := 1) (by norm_num) (.enum .u)) rfl (by norm_num) (by norm_num)
example := C32_u_le_v (env := stdEnv) (energyCall_mat ![![0, 1], ![2, 5], ![(1 : ℝ), 1]]
  ![![3, 1], ![(1 : ℝ), 1]] (α := 1) (by norm_num) (.enum .u)) (energyCall_mat _ _ (by norm_num)
  (.enum .v)) rfl one_pos rfl rfl (by norm_num) (by norm_num)
example := C32_single_observation_nan (env := stdEnv) (energyCall_mat ![![0, 1]]
  ![![3, 1], ![(1 : ℝ), 1]] (α := 1) (by norm_num) (.enum .u)) rfl (Or.inl le_rfl)

/-! ### C33 -/

/-- Equality of strings up to ASCII case. -/
def SameUpToCase (s t : String) : Prop := s.toList.map Char.toUpper = t.toList.map Char.toUpper

instance (s t : String) : Decidable (SameUpToCase s t) := inferInstanceAs (Decidable (_ = _))

private theorem asciiUpper_eq_iff (s t : String) (ht : t.toList.map Char.toUpper = t.toList) :
    asciiUpper s = t ↔ SameUpToCase s t := by
  unfold asciiUpper SameUpToCase
  rw [ht]
  constructor
  · intro h
    rw [← h, String.toList_ofList]
  · intro h
    rw [h, String.ofList_toList]

/-- C33: parsing of the name of the statistic. -/
theorem C33_from_string (henv : env.upper = asciiUpper) (s : String) :
    (EstStat.fromString env s = .ok .u ↔ SameUpToCase s "u" ∨ SameUpToCase s "u_statistic") ∧
    (EstStat.fromString env s = .ok .v ↔ SameUpToCase s "v" ∨ SameUpToCase s "v_statistic") ∧
    (EstStat.fromString env s = .error .keyError ↔
      ¬ (SameUpToCase s "u" ∨ SameUpToCase s "u_statistic" ∨ SameUpToCase s "v" ∨
        SameUpToCase s "v_statistic")) := by
  have hu : asciiUpper s = "U" ↔ SameUpToCase s "u" := by
    rw [asciiUpper_eq_iff s "U" (by decide)]
    exact Iff.of_eq (congrArg (s.toList.map Char.toUpper = ·) (by decide))
  have hv : asciiUpper s = "V" ↔ SameUpToCase s "v" := by
    rw [asciiUpper_eq_iff s "V" (by decide)]
    exact Iff.of_eq (congrArg (s.toList.map Char.toUpper = ·) (by decide))
  have hus : asciiUpper s = "U_STATISTIC" ↔ SameUpToCase s "u_statistic" := by
    rw [asciiUpper_eq_iff s "U_STATISTIC" (by decide)]
    exact Iff.of_eq (congrArg (s.toList.map Char.toUpper = ·) (by decide))
  have hvs : asciiUpper s = "V_STATISTIC" ↔ SameUpToCase s "v_statistic" := by
    rw [asciiUpper_eq_iff s "V_STATISTIC" (by decide)]
    exact Iff.of_eq (congrArg (s.toList.map Char.toUpper = ·) (by decide))
  simp only [← hu, ← hv, ← hus, ← hvs, EstStat.fromString, henv]
  by_cases h1 : asciiUpper s = "U"
  · simp [h1]
  by_cases h2 : asciiUpper s = "V"
  · simp [h2]
  by_cases h3 : asciiUpper s = "U_STATISTIC"
  · simp [h3]
  by_cases h4 : asciiUpper s = "V_STATISTIC"
  · simp [h4]
  simp [h1, h2, h3, h4]

/-- C33: a recognised string and the enumeration member are interchangeable in `energy_distance`,
whatever the other arguments. -/
theorem C33_string_is_enum (henv : env.upper = asciiUpper) (s : String) (e : EstStat) (α : ℝ)
    (average : Option Average)
    (hs : match e with
      | .u => SameUpToCase s "u" ∨ SameUpToCase s "u_statistic"
      | .v => SameUpToCase s "v" ∨ SameUpToCase s "v_statistic") :
    energyDistance env x y ⟨α, average, .name s⟩ = energyDistance env x y ⟨α, average, .enum e⟩ := by
  have h : EstLike.resolve env (.name s) = EstLike.resolve env (.enum e) := by
    cases e
    · exact (C33_from_string henv s).1.2 hs
    · exact (C33_from_string henv s).2.1.2 hs
  unfold energyDistance energyFromMatrices
  simp only [h]

/-- C33: any other string makes a call on valid samples fail with `KeyError`. -/
theorem C33_unknown_string (henv : env.upper = asciiUpper) (s : String)
    (h : EnergyCall x y o X Y) (hs : o.stat = .name s)
    (hn : ¬ (SameUpToCase s "u" ∨ SameUpToCase s "u_statistic" ∨ SameUpToCase s "v" ∨
        SameUpToCase s "v_statistic")) :
    (energyDistance env x y o).out = .error .keyError := by
  have hr : o.stat.resolve env = .error .keyError := by
    rw [hs]
    exact (C33_from_string henv s).2.2.2 hn
  unfold energyDistance
  rw [h.hx.to2d, h.hy.to2d, PyM.lift_ok_bind, PyM.lift_ok_bind, checkValidEnergyExponent_eq,
    PyM.mk_ok_bind]
  dsimp only
  rw [pdist_eq env _ _ X _ fun e => h.decimal (Or.inl e),
    pdist_eq env _ _ Y _ fun e => h.decimal (Or.inr e), PyM.lift_ok_bind, PyM.lift_ok_bind]
  obtain ⟨M, hM, -⟩ := cdist_mean (env := env) (commonNs x.ns y.ns) x.dtype y.dtype X Y
    o.exponent h.decimal (decimalClash_false h.decimal_iff)
  rw [hM, PyM.lift_ok_bind]
  unfold energyFromMatrices
  rw [hr]
  rfl

example : SameUpToCase "U_Statistic" "u_statistic" := by decide
example : ¬ SameUpToCase "w" "u" := by decide
example := C33_string_is_enum (env := stdEnv) (x := npVec ![0, (1 : ℝ)]) (y := npVec ![(1 : ℝ)]) rfl
  "V_stAtistic" .v 1 none (Or.inr (by decide))
example := C33_unknown_string (env := stdEnv) rfl "w" (energyCall_mat ![![0, 1]]
  ![![3, 1], ![(1 : ℝ), 1]] (α := 1) (by norm_num) (.name "w")) rfl (by
    rintro (h | h | h | h) <;> exact absurd h (by decide))

/-! ### C34 -/

/-- C34: `energy_distance` issues one warning if the exponent is outside `(0, 2)` and none otherwise,
for all arrays of at most two dimensions (whatever then happens). -/
theorem C34_energy_warns (hx : Holds x.data n p X) {Y : Fin m → Fin q → ℝ}
    (hy : Holds y.data m q Y) :
    (energyDistance env x y o).warns
      = if 0 < o.exponent ∧ o.exponent < 2 then [] else [.energyExponent] := by
  unfold energyDistance
  rw [hx.to2d, hy.to2d, PyM.lift_ok_bind, PyM.lift_ok_bind, checkValidEnergyExponent_eq]
  rw [PyM.bind_warns]
  · rfl
  · intro _
    refine PyM.bind_silent rfl fun _ => PyM.bind_silent rfl fun _ => ?_
    exact PyM.bind_silent rfl fun _ => rfl

/-- C34: after the warning `energy_distance` proceeds as usual: the result is given by the same
formula for every non-negative exponent. -/
theorem C34_energy_proceeds (h : EnergyCall x y o X Y) (hs : o.stat = .enum .v) (hn : 0 < n)
    (hm : 0 < m) :
    ∃ k, (energyDistance env x y o).out = .ok ⟨.fin (
      2 * ((∑ i, ∑ j, Spec.dist o.exponent (X i) (Y j)) / (n * m))
      - (∑ i, ∑ j, Spec.dist o.exponent (X i) (X j)) / (n * n)
      - (∑ i, ∑ j, Spec.dist o.exponent (Y i) (Y j)) / (m * m)), k⟩ := by
  refine ⟨energyKind x, ?_⟩
  rw [energyDistance_v h (by rw [hs]; rfl) hn hm]
  rfl

/-- C34: the covariance and correlation functions, when they use the naive method, issue one warning
if the exponent is outside `(0, 2)` and none otherwise, for all arguments. -/
theorem C34_naive_warns {o : Opts} {meth : Method} (hm : toAlgorithm env o.method = .ok meth)
    (hu : UsesNaive meth x y o.exponent) (hc : o.compileMode = .auto ∨ o.compileMode = .noCompile) :
    let w := if 0 < o.exponent ∧ o.exponent < 2 then [] else [Warn.dcovExponent]
    (distanceCovarianceSqr env x y o).warns = w ∧ (uDistanceCovarianceSqr env x y o).warns = w ∧
    (distanceCovariance env x y o).warns = w ∧ (distanceStatsSqr env x y o).warns = w ∧
    (uDistanceStatsSqr env x y o).warns = w ∧ (distanceStats env x y o).warns = w ∧
    (distanceCorrelationSqr env x y o).warns = w ∧
    (uDistanceCorrelationSqr env x y o).warns = w ∧ (distanceCorrelation env x y o).warns = w := by
  intro w
  have h1 : ∀ b, (dcovSqr env meth x y o.exponent o.compileMode b).warns = w :=
    fun b => dcovSqr_warns hu hc b
  have h2 : ∀ b, (statsSqr env meth x y o.exponent o.compileMode b).warns = w :=
    fun b => statsSqr_warns hu hc b
  have c1 : (distanceCovarianceSqr env x y o).warns = w := by
    unfold distanceCovarianceSqr
    rw [hm, PyM.lift_ok_bind, h1]
  have c2 : (distanceStatsSqr env x y o).warns = w := by
    unfold distanceStatsSqr
    rw [hm, PyM.lift_ok_bind, h2]
  have c3 : (distanceCorrelationSqr env x y o).warns = w := by
    unfold distanceCorrelationSqr
    rw [hm, PyM.lift_ok_bind, PyM.bind_warns fun _ => rfl, h2]
  refine ⟨c1, ?_, ?_, c2, ?_, ?_, c3, ?_, ?_⟩
  · unfold uDistanceCovarianceSqr
    rw [hm, PyM.lift_ok_bind, h1]
  · unfold distanceCovariance
    rw [PyM.bind_warns fun _ => rfl, c1]
  · unfold uDistanceStatsSqr
    rw [hm, PyM.lift_ok_bind, h2]
  · unfold distanceStats
    rw [PyM.bind_warns fun _ => rfl, c2]
  · unfold uDistanceCorrelationSqr
    rw [hm, PyM.lift_ok_bind, PyM.bind_warns fun _ => rfl, h2]
  · unfold distanceCorrelation
    rw [PyM.bind_warns fun _ => rfl, c3]

/-- C34: after the warning the naive covariance proceeds as usual. -/
theorem C34_naive_proceeds {o : Opts} {X : Fin n → Fin p → ℝ} {Y : Fin n → Fin q → ℝ}
    (h : Supported env x y o X Y) (hn : 0 < n) :
    (distanceCovarianceSqr env x y o).out
      = .ok (.fin (Spec.dcovSqr (Spec.distMat o.exponent X) (Spec.distMat o.exponent Y))) :=
  distanceCovarianceSqr_ok h hn

example := C34_energy_warns (env := stdEnv) (o := ⟨2, none, .enum .v⟩) (npVec_holds ![0, (1 : ℝ)])
  (npVec_holds ![(1 : ℝ)])
example := C34_energy_proceeds (env := stdEnv) (energyCall_mat ![![0, 1]]
  ![![3, 1], ![(1 : ℝ), 1]] (α := 3) (by norm_num) (.enum .v)) rfl (by norm_num) (by norm_num)
example := C34_naive_warns (env := stdEnv) (x := npVec ![0, (1 : ℝ)]) (y := npVec ![0, (3 : ℝ)])
  (o := ⟨2, .enum .auto, .auto⟩) rfl (Or.inr ⟨rfl, by simp [canUseFastAlgorithm]⟩) (Or.inl rfl)
example := C34_naive_proceeds (supported_mat (n := 3) ![![0], ![1], ![(2 : ℝ)]]
  ![![0], ![1], ![(0 : ℝ)]] 4 (by norm_num)) (by norm_num)

/-! ### C35 -/

private theorem energy_congr {x' y' : Arr} {q n' m' : ℕ} {X' : Fin n' → Fin q → ℝ}
    {Y' : Fin m' → Fin q → ℝ} (h : EnergyCall x y o X Y) (h' : EnergyCall x' y' o X' Y')
    {s : EstStat} (hs : o.stat.resolve env = .ok s) (hn : n' = n) (hm : m' = m)
    (hxy : ∑ i, ∑ j, Spec.dist o.exponent (X' i) (Y' j)
      = ∑ i, ∑ j, Spec.dist o.exponent (X i) (Y j))
    (hx : meanOf (withinArg s ⟨⟨n', n', Spec.distMat o.exponent X'⟩, x'.dtype == .decimal⟩)
      = meanOf (withinArg s ⟨⟨n, n, Spec.distMat o.exponent X⟩, x.dtype == .decimal⟩))
    (hy : meanOf (withinArg s ⟨⟨m', m', Spec.distMat o.exponent Y'⟩, y'.dtype == .decimal⟩)
      = meanOf (withinArg s ⟨⟨m, m, Spec.distMat o.exponent Y⟩, y.dtype == .decimal⟩)) :
    ∃ v k k', (energyDistance env x' y' o).out = .ok ⟨v, k'⟩ ∧
      (energyDistance env x y o).out = .ok ⟨v, k⟩ := by
  subst hn
  subst hm
  rw [energyDistance_eq h hs, energyDistance_eq h' hs, hxy, hx, hy]
  exact ⟨_, _, _, rfl, rfl⟩

private theorem mean_within (s : EstStat) (α : ℝ) (X : Fin n → Fin p → ℝ) (b : Bool) :
    meanOf (withinArg s ⟨⟨n, n, Spec.distMat α X⟩, b⟩)
      = match s with
        | .v => if n = 0 then .nan else .fin (Spec.crossMean α X X)
        | .u => if n ≤ 1 then .nan else .fin (Spec.pairMean α X) := by
  cases s
  · dsimp only [withinArg]
    split_ifs with h
    · exact meanOf_upper_small h _
    · exact meanOf_upper (by omega) _ (Spec.distMat_symm α X)
  · dsimp only [withinArg]
    split_ifs with h
    · exact meanOf_mat_empty (Or.inl h) _
    · exact meanOf_mat (by omega) (by omega) _

/-- C35: a common isometry of both samples, possibly into another dimension, does not change the
result of either estimator. -/
theorem C35_isometry {x' y' : Arr} {q : ℕ} (T : (Fin p → ℝ) → (Fin q → ℝ))
    (hT : ∀ u v, ∑ c, (T u c - T v c) ^ 2 = ∑ c, (u c - v c) ^ 2) (h : EnergyCall x y o X Y)
    (h' : EnergyCall x' y' o (fun i => T (X i)) (fun j => T (Y j))) {s : EstStat}
    (hs : o.stat.resolve env = .ok s) :
    ∃ v k k', (energyDistance env x' y' o).out = .ok ⟨v, k'⟩ ∧
      (energyDistance env x y o).out = .ok ⟨v, k⟩ := by
  have hd : ∀ u v, Spec.dist o.exponent (T u) (T v) = Spec.dist o.exponent u v := fun u v => by
    unfold Spec.dist
    rw [hT]
  refine energy_congr h h' hs rfl rfl (by simp only [hd]) ?_ ?_
  · rw [mean_within, mean_within]
    simp only [Spec.crossMean, Spec.pairMean, hd]
  · rw [mean_within, mean_within]
    simp only [Spec.crossMean, Spec.pairMean, hd]

/-- C35: the order of the observations in either sample does not matter. -/
theorem C35_reorder {x' y' : Arr} (σ : Equiv.Perm (Fin n)) (τ : Equiv.Perm (Fin m))
    (h : EnergyCall x y o X Y)
    (h' : EnergyCall x' y' o (fun i => X (σ i)) (fun j => Y (τ j))) {s : EstStat}
    (hs : o.stat.resolve env = .ok s) :
    ∃ v k k', (energyDistance env x' y' o).out = .ok ⟨v, k'⟩ ∧
      (energyDistance env x y o).out = .ok ⟨v, k⟩ := by
  have hc : ∀ {a b : ℕ} (A : Fin a → Fin p → ℝ) (B : Fin b → Fin p → ℝ) (π : Equiv.Perm (Fin a))
      (ρ : Equiv.Perm (Fin b)), ∑ i, ∑ j, Spec.dist o.exponent (A (π i)) (B (ρ j))
      = ∑ i, ∑ j, Spec.dist o.exponent (A i) (B j) := by
    intro a b A B π ρ
    rw [Equiv.sum_comp π fun i => ∑ j, Spec.dist o.exponent (A i) (B (ρ j))]
    exact sum_congr rfl fun i _ => Equiv.sum_comp ρ fun j => Spec.dist o.exponent (A i) (B j)
  have hp : ∀ {a : ℕ} (A : Fin a → Fin p → ℝ) (π : Equiv.Perm (Fin a)),
      ∑ i, ∑ j ∈ univ.filter (· ≠ i), Spec.dist o.exponent (A (π i)) (A (π j))
      = ∑ i, ∑ j ∈ univ.filter (· ≠ i), Spec.dist o.exponent (A i) (A j) := by
    intro a A π
    simp only [sum_filter]
    rw [← Equiv.sum_comp π fun i => ∑ j, if j ≠ i then Spec.dist o.exponent (A i) (A j) else 0]
    refine sum_congr rfl fun i _ => ?_
    rw [← Equiv.sum_comp π fun j => if j ≠ π i then Spec.dist o.exponent (A (π i)) (A j) else 0]
    simp
  refine energy_congr h h' hs rfl rfl (hc X Y σ τ) ?_ ?_
  · rw [mean_within, mean_within]
    simp only [Spec.crossMean, Spec.pairMean, hc X X σ σ, hp X σ]
  · rw [mean_within, mean_within]
    simp only [Spec.crossMean, Spec.pairMean, hc Y Y τ τ, hp Y τ]

/-- C35: multiplying all observations by `c` multiplies the result by `|c|^exponent`. -/
theorem C35_scale {x' y' : Arr} (c : ℝ) (h : EnergyCall x y o X Y)
    (h' : EnergyCall x' y' o (fun i a => c * X i a) (fun j a => c * Y j a)) {s : EstStat}
    (hs : o.stat.resolve env = .ok s) :
    ∃ v k k', (energyDistance env x' y' o).out = .ok ⟨.fin (|c| ^ o.exponent) * v, k'⟩ ∧
      (energyDistance env x y o).out = .ok ⟨v, k⟩ := by
  have hd : ∀ u v : Fin p → ℝ, Spec.dist o.exponent (fun a => c * u a) (fun a => c * v a)
      = |c| ^ o.exponent * Spec.dist o.exponent u v := by
    intro u v
    unfold Spec.dist
    have : ∑ a, (c * u a - c * v a) ^ 2 = c ^ 2 * ∑ a, (u a - v a) ^ 2 := by
      rw [mul_sum]
      exact sum_congr rfl fun a _ => by ring
    rw [this, Real.sqrt_mul (sq_nonneg c), Real.sqrt_sq_eq_abs,
      Real.mul_rpow (abs_nonneg c) (Real.sqrt_nonneg _)]
  by_cases hsmall : n = 0 ∨ m = 0 ∨ (s = .u ∧ (n ≤ 1 ∨ m ≤ 1))
  · refine ⟨.nan, energyKind x, energyKind x', ?_, ?_⟩
    · rw [energyDistance_nan h' hs hsmall, FP.mul_nan]
    · rw [energyDistance_nan h hs hsmall]
  have hn : 0 < n := by omega
  have hm : 0 < m := by omega
  cases s with
  | v =>
    refine ⟨_, energyKind x, energyKind x', ?_, by rw [energyDistance_v h hs hn hm]⟩
    rw [energyDistance_v h' hs hn hm, FP.fin_mul]
    congr 3
    simp only [Spec.energyV, Spec.crossMean, hd, ← mul_sum]
    ring
  | u =>
    have hn2 : 2 ≤ n := by
      by_contra hh
      exact hsmall (Or.inr (Or.inr ⟨rfl, Or.inl (by omega)⟩))
    have hm2 : 2 ≤ m := by
      by_contra hh
      exact hsmall (Or.inr (Or.inr ⟨rfl, Or.inr (by omega)⟩))
    refine ⟨_, energyKind x, energyKind x', ?_, by rw [energyDistance_u h hs hn2 hm2]⟩
    rw [energyDistance_u h' hs hn2 hm2, FP.fin_mul]
    congr 3
    simp only [Spec.energyU, Spec.pairMean, Spec.crossMean, hd, ← mul_sum]
    ring

example := C35_isometry (env := stdEnv) (fun u : Fin 2 → ℝ => ![u 1, -u 0])
  (by intro u v; simp [Fin.sum_univ_succ]; ring)
  (energyCall_mat ![![0, 1], ![2, 5], ![(1 : ℝ), 1]] ![![3, 1], ![(1 : ℝ), 1]] (α := 1)
    (by norm_num) (.enum .u)) (energyCall_mat _ _ (by norm_num) _) rfl
example := C35_reorder (env := stdEnv) (Equiv.swap 0 1) (Equiv.swap 0 1)
  (energyCall_mat ![![0, 1], ![2, 5], ![(1 : ℝ), 1]] ![![3, 1], ![(1 : ℝ), 1]] (α := 1)
    (by norm_num) (.enum .v)) (energyCall_mat _ _ (by norm_num) _) rfl
example := C35_scale (env := stdEnv) (-2)
  (energyCall_mat ![![0, 1], ![2, 5], ![(1 : ℝ), 1]] ![![3, 1], ![(1 : ℝ), 1]] (α := 1)
    (by norm_num) (.enum .v)) (energyCall_mat _ _ (by norm_num) _) rfl

end Dcor.Props

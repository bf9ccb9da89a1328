/-
Properties C37, C41, C42 for the energy test.
-/
import Verif.Props.Resampling

namespace Dcor.Props

open Finset

variable {S : Type} {env : Env} {rng : Rng S} {rs : RandomLike S} {nJobs : Option ℤ}
  {n m p k : ℕ} {x y : Arr} {o : EnergyOpts} {X : Fin n → Fin p → ℝ} {Y : Fin m → Fin p → ℝ}
  {sz : Fin k → ℕ} {A : Fin k → Arr} {W : (a : Fin k) → Fin (sz a) → Fin p → ℝ}

private theorem energyDistance_fp (h : EnergyCall x y o X Y) {s : EstStat}
    (hs : o.stat.resolve env = .ok s) :
    energyDistance env x y o = ⟨energyWarns o.exponent,
      .ok ⟨Spec.energyFP s o.exponent X Y, energyKind x⟩⟩ := by
  cases s with
  | v =>
    unfold Spec.energyFP
    by_cases h0 : n = 0 ∨ m = 0
    · rw [energyDistance_nan h hs (by tauto)]
      simp only [if_pos h0]
    · rw [energyDistance_v h hs (by omega) (by omega)]
      simp only [if_neg h0]
  | u =>
    unfold Spec.energyFP
    by_cases h0 : n ≤ 1 ∨ m ≤ 1
    · rw [energyDistance_nan h hs (by tauto)]
      simp only [if_pos h0]
    · rw [energyDistance_u h hs (by omega) (by omega)]
      simp only [if_neg h0]

private theorem energyTestStatistic_ok (h : EnergyCall x y o X Y) {s : EstStat}
    (hs : o.stat.resolve env = .ok s) (hx : x.dtype ≠ .decimal) (hn : 0 < n) :
    (energyTestStatistic env x y o).out
      = .ok ⟨Spec.energyTestPair s o.exponent X Y, .npFloat⟩ := by
  unfold energyTestStatistic energyCoefficient
  rw [h.hx.to2d, h.hy.to2d, PyM.lift_ok_bind, PyM.lift_ok_bind]
  dsimp only
  rw [if_neg (by omega), PyM.lift_ok_bind]
  have h' : EnergyCall ⟨commonNs x.ns y.ns, x.dtype, .mat n p X⟩ ⟨commonNs x.ns y.ns, y.dtype,
      .mat m p Y⟩ o X Y :=
    ⟨Holds.mat _ _ X, Holds.mat _ _ Y, h.mean, h.exponent_nonneg, h.decimal, h.decimal_iff⟩
  rw [energyDistance_fp h' hs, PyM.mk_ok_bind]
  unfold energyKind scaleScalar
  simp only [if_neg hx]
  rfl

private theorem resolve_of_ok {v : Scalar} (h : EnergyCall x y o X Y)
    (hv : (energyDistance env x y o).out = .ok v) : ∃ s, o.stat.resolve env = .ok s := by
  cases hs : o.stat.resolve env with
  | ok s => exact ⟨s, rfl⟩
  | error e =>
    exfalso
    unfold energyDistance at hv
    rw [h.hx.to2d, h.hy.to2d, PyM.lift_ok_bind, PyM.lift_ok_bind, checkValidEnergyExponent_eq,
      PyM.mk_ok_bind] at hv
    have hc : ∀ {β γ : Type} (a : Except PyErr β) (f : β → PyM γ), (∀ b w, (f b).out ≠ .ok w) →
        ∀ w, (PyM.lift a >>= f).out ≠ .ok w := by
      intro β γ a f hf w
      cases a with
      | error e => intro h; cases h
      | ok b => rw [PyM.lift_ok_bind]; exact hf b w
    refine hc _ _ (fun b w => hc _ _ (fun b w => hc _ _ (fun b w => ?_) _) _) _ hv
    unfold energyFromMatrices
    rw [hs]
    intro h
    cases h

/-- A pair of samples of a supported call of `energy_test` is a supported call of
`energy_distance`. -/
private theorem EnergyTestCall.pair (h : EnergyTestCall A o W) (a b : Fin k) :
    EnergyCall (A a) (A b) o (W a) (W b) :=
  ⟨h.holds a, h.holds b, h.mean, h.exponent_nonneg, fun e => e.elim (fun e => absurd e (h.dtype a))
    fun e => absurd e (h.dtype b), by
    constructor
    · exact fun e => absurd e (h.dtype a)
    · exact fun e => absurd e (h.dtype b)⟩

private theorem nJobs_ne_zero {args : List Arr} {B : ℤ} {v : HypothesisTest × S}
    (h : (energyTest env rng args B o rs nJobs).out = .ok v) : nJobs ≠ some 0 := by
  rintro rfl
  exact (C38_n_jobs (.energy args o) (nJobs := some 1) (nJobs' := some 1) (by simp) (by simp)).2 _ h

private theorem resolve_of_test {B : ℤ} {v : HypothesisTest × S} (hc : EnergyTestCall A o W)
    (h : (energyTest env rng (List.ofFn A) B o rs nJobs).out = .ok v) :
    ∃ s, o.stat.resolve env = .ok s := by
  cases hs : o.stat.resolve env with
  | ok s => exact ⟨s, rfl⟩
  | error e =>
    exfalso
    have hd : ∀ d ∈ List.ofFn fun a => (A a).dtype, d ≠ .decimal := by
      intro d hd
      rw [List.mem_ofFn] at hd
      obtain ⟨a, rfl⟩ := hd
      exact hc.dtype a
    unfold energyTest PyM.permutationTest at h
    rw [energyTestSetup_ok (by have := hc.two; omega) hc.holds (mixedDecimalList_false hd)
      (fun e => absurd e (joinDTypes_ne_decimal hd)), PyM.mk_ok_bind] at h
    have h2 : ∀ (N : ℕ) (d : Fin N → Fin N → ℝ) dec, ∃ e, energyMultivariate env d dec
        (List.ofFn fun a => (offset sz a, sz a)) o.average o.stat = .error e := by
      intro N d dec
      obtain ⟨k, rfl⟩ : ∃ l, k = l + 2 := ⟨k - 2, by have := hc.two; omega⟩
      refine ⟨e, ?_⟩
      unfold energyMultivariate
      rw [List.ofFn_succ, List.ofFn_succ]
      unfold outerPairs innerPairs pairEnergy energyTestFromMatrices energyFromMatrices
      rw [hs]
      rfl
    unfold permutationTest at h
    dsimp only at h
    obtain ⟨e, he⟩ := h2 _ (Spec.distMat o.exponent (Spec.pooled W))
      (joinDTypes (List.ofFn fun a => (A a).dtype) == .decimal)
    rw [he] at h
    cases h

/-! ### C42 -/

/-- C42: for two samples the statistic of `energy_test` is what `energy_test_statistic` returns. -/
theorem C42_two_samples {W : (a : Fin 2) → Fin (![n, m] a) → Fin p → ℝ}
    (hc : EnergyTestCall ![x, y] o W) {B : ℕ} {r : HypothesisTest} {s' : S}
    (h : (energyTest env rng [x, y] B o rs nJobs).out = .ok (r, s')) :
    (energyTestStatistic env x y o).out = .ok ⟨r.statistic, .npFloat⟩ := by
  have hl : [x, y] = List.ofFn ![x, y] := rfl
  rw [hl] at h
  obtain ⟨s, hs⟩ := resolve_of_test hc h
  have h2 := congrArg PyM.out (energyTest_ok (rng := rng) (rs := rs) hc hs (nJobs_ne_zero h) B)
  rw [h] at h2
  have h3 := energyTestStatistic_ok (EnergyTestCall.pair hc 0 1) hs (hc.dtype 0) (hc.pos 0)
  have h4 : r.statistic = Spec.energyTestPair s o.exponent (W 0) (W 1) := by
    cases h2
    exact Spec.energyTestStat_two s _ W
  rw [h4]
  exact h3

/-- C42: for `k ≥ 2` samples the statistic of `energy_test` is the sum over all pairs of samples of
what `energy_test_statistic` returns for the pair. -/
theorem C42_sum_over_pairs (hc : EnergyTestCall A o W) {B : ℕ} {r : HypothesisTest} {s' : S}
    (h : (energyTest env rng (List.ofFn A) B o rs nJobs).out = .ok (r, s')) :
    ∃ v : Fin k → Fin k → FP ℝ,
      (∀ a b, (energyTestStatistic env (A a) (A b) o).out = .ok ⟨v a b, .npFloat⟩) ∧
      r.statistic = ∑ a, ∑ b ∈ univ.filter (a < ·), v a b := by
  obtain ⟨s, hs⟩ := resolve_of_test hc h
  have h2 := congrArg PyM.out (energyTest_ok (rng := rng) (rs := rs) hc hs (nJobs_ne_zero h) B)
  rw [h] at h2
  refine ⟨fun a b => Spec.energyTestPair s o.exponent (W a) (W b), fun a b =>
    energyTestStatistic_ok (EnergyTestCall.pair hc a b) hs (hc.dtype a) (hc.pos a), ?_⟩
  cases h2
  rfl

/-- C42: supported calls succeed. -/
theorem C42_succeeds (hc : EnergyTestCall A o W) {s : EstStat} (hs : o.stat.resolve env = .ok s)
    (hj : nJobs ≠ some 0) (B : ℕ) :
    ∃ r s', (energyTest env rng (List.ofFn A) B o rs nJobs).out = .ok (r, s') :=
  ⟨_, _, congrArg PyM.out (energyTest_ok hc hs hj B)⟩

/-- C42: with fewer than two samples `energy_test` fails. -/
theorem C42_fewer_than_two {args : List Arr} (hl : args.length < 2) (B : ℤ) :
    ∃ e, (energyTest env rng args B o rs nJobs).out = .error e := by
  have key : (∃ e, (energyTestSetup env args o).out = .error e) ∨
      ∃ t, (energyTestSetup env args o).out = .ok t ∧ ∀ M, t.stat M = .error .unboundLocalError := by
    unfold energyTestSetup
    match args, hl with
    | [], _ =>
      left
      refine ⟨.valueError, ?_⟩
      rw [show [].mapM (fun a : Arr => transformTo2d a.data) = .ok [] from rfl, PyM.lift_ok_bind,
        checkValidEnergyExponent_eq, PyM.mk_ok_bind]
      rfl
    | [a], _ =>
      cases ha : transformTo2d a.data with
      | error e =>
        left
        refine ⟨e, ?_⟩
        simp only [List.mapM_cons, ha]
        rfl
      | ok a2 =>
        have h1 : [a].mapM (fun a => transformTo2d a.data) = .ok [a2] := by
          rw [List.mapM_cons, ha]
          rfl
        rw [h1, PyM.lift_ok_bind, checkValidEnergyExponent_eq, PyM.mk_ok_bind]
        dsimp only
        have h2 : concatMats (List.map id [a2]) = .ok a2 := rfl
        rw [List.map_id] at h2
        rw [h2, PyM.lift_ok_bind]
        have h3 : mixedDecimalList ([a].map Arr.dtype) = false := by
          show mixedDecimalList [a.dtype] = false
          cases a.dtype <;> rfl
        rw [h3, if_neg (by simp)]
        cases hd : pdist env (commonNsList ([a].map Arr.ns)) (joinDTypes ([a].map Arr.dtype)) a2
            o.exponent with
        | error e => exact Or.inl ⟨e, rfl⟩
        | ok d => exact Or.inr ⟨_, rfl, fun M => rfl⟩
  unfold energyTest PyM.permutationTest
  rcases key with ⟨e, he⟩ | ⟨t, ht, hst⟩
  · exact ⟨e, PyM.bind_err he⟩
  · rw [PyM.bind_ok ht]
    refine ⟨.unboundLocalError, ?_⟩
    unfold permutationTest
    rw [hst]
    rfl

/-- Four observations in three samples. -/
private def exSz : Fin 3 → ℕ := ![2, 1, 1]

private def exW : (a : Fin 3) → Fin (exSz a) → Fin 2 → ℝ := fun a i j => (a : ℝ) * i - j

example := C42_two_samples (env := stdEnv) (rng := shiftRng) (rs := .gen 0) (nJobs := some 2) (B := 7)
  (energyTestCall_two exX exX (by norm_num) (by norm_num) (α := 3) (by norm_num) (.enum .u))
  (congrArg PyM.out (energyTest_ok (energyTestCall_two exX exX (by norm_num) (by norm_num) (α := 3)
    (by norm_num) (.enum .u)) rfl (by simp) 7))
example := C42_sum_over_pairs (env := stdEnv) (rng := shiftRng) (rs := .gen 0) (nJobs := some 2)
  (B := 7) (energyTestCall_mat (by norm_num) (by decide) exW zero_le_one (.name "v"))
  (congrArg PyM.out (energyTest_ok (energyTestCall_mat (by norm_num) (by decide) exW zero_le_one
    (.name "v")) rfl (by simp) 7))
example := C42_fewer_than_two (env := stdEnv) (rng := shiftRng) (rs := .gen 0) (nJobs := some 2)
  (o := {}) (args := [npMat exX]) (by decide) 7

/-! ### C37 -/

/-- C37: for two samples the statistic of `energy_test` is `n m / (n + m)` times the energy
distance. -/
theorem C37_energy_statistic {W : (a : Fin 2) → Fin (![n, m] a) → Fin p → ℝ}
    (hc : EnergyTestCall ![x, y] o W) {B : ℕ} {r : HypothesisTest} {s' : S}
    (h : (energyTest env rng [x, y] B o rs nJobs).out = .ok (r, s')) :
    ∃ e kind, (energyDistance env x y o).out = .ok ⟨e, kind⟩ ∧
      r.statistic = .fin ((n : ℝ) * m / (n + m)) * e := by
  have hl : [x, y] = List.ofFn ![x, y] := rfl
  obtain ⟨s, hs⟩ := resolve_of_test hc (hl ▸ h)
  have h1 := C42_two_samples hc h
  have h2 : (energyTestStatistic env x y o).out = _ :=
    energyTestStatistic_ok (EnergyTestCall.pair hc 0 1) hs (hc.dtype 0) (hc.pos 0)
  rw [h1] at h2
  refine ⟨_, _, congrArg PyM.out (energyDistance_fp (EnergyTestCall.pair hc 0 1) hs), ?_⟩
  simp only [Except.ok.injEq, Scalar.mk.injEq, and_true] at h2
  rw [h2]
  rfl

example := C37_energy_statistic (env := stdEnv) (rng := shiftRng) (rs := .gen 0) (nJobs := some 2)
  (B := 7)
  (energyTestCall_two exX exX (by norm_num) (by norm_num) (α := 3) (by norm_num) (.enum .u))
  (congrArg PyM.out (energyTest_ok (energyTestCall_two exX exX (by norm_num) (by norm_num) (α := 3)
    (by norm_num) (.enum .u)) rfl (by simp) 7))

/-! ### C41 -/

open Classical in
/-- C41: each resampled statistic of `energy_test` is the statistic of the relabelled pooled sample:
the p-value compares the statistic of the test with the statistics of the tests on the arrays `A' i`,
which hold the pooled observations in the order of the `i`-th permutation drawn, cut into samples of
the original sizes. The `average` function is arbitrary. -/
theorem C41_energy_relabels_observations (hk : 0 < k) (hA : ∀ a, Holds (A a).data (sz a) p (W a))
    (hd : ∀ a, (A a).dtype ≠ .decimal) {B : ℕ} {r : HypothesisTest} {s' : S}
    (h : (energyTest env rng (List.ofFn A) B o rs nJobs).out = .ok (r, s'))
    (A' : Fin B → Fin k → Arr) (hd' : ∀ i a, (A' i a).dtype ≠ .decimal)
    (hA' : ∀ (i : Fin B) a, Holds (A' i a).data (sz a) p (Spec.relabel W
      (permAt rng (∑ a, sz a) (randomStateInit rng rs) i) a))
    {S' : Type} {rng' : Rng S'} {rs' : RandomLike S'} {nJobs' : Option ℤ} {B' : ℕ}
    (ri : Fin B → HypothesisTest)
    (hri : ∀ i, ∃ s, (energyTest env rng' (List.ofFn (A' i)) B' o rs' nJobs').out = .ok (ri i, s)) :
    r.pvalue = (((univ.filter fun i => FP.lt r.statistic (ri i).statistic).card : ℝ) + 1)
      / ((B : ℝ) + 1) := by
  have setup : ∀ {A : Fin k → Arr} {W : (a : Fin k) → Fin (sz a) → Fin p → ℝ}
      (_ : ∀ a, Holds (A a).data (sz a) p (W a)) (_ : ∀ a, (A a).dtype ≠ .decimal),
      energyTestSetup env (List.ofFn A) o = ⟨energyWarns o.exponent,
        .ok ⟨∑ a, sz a, Spec.distMat o.exponent (Spec.pooled W), fun m => energyMultivariate env m
          false (List.ofFn fun a => (offset sz a, sz a)) o.average o.stat⟩⟩ := by
    intro A W hA hd
    have hd' : ∀ d ∈ List.ofFn fun a => (A a).dtype, d ≠ .decimal := by
      intro d hd'
      rw [List.mem_ofFn] at hd'
      obtain ⟨a, rfl⟩ := hd'
      exact hd a
    rw [energyTestSetup_ok hk hA (mixedDecimalList_false hd')
      (fun e => absurd e (joinDTypes_ne_decimal hd'))]
    have : (joinDTypes (List.ofFn fun a => (A a).dtype) == .decimal) = false := by
      simpa using joinDTypes_ne_decimal hd'
    rw [this]
  unfold energyTest PyM.permutationTest at h hri
  rw [setup hA hd, PyM.mk_ok_bind] at h
  obtain ⟨values, hv, -, hp⟩ := C36_pvalue_formula (show permutationTest rng _ _ _ _ _ = _ from h)
  rw [hp]
  congr 3
  refine congrArg card (filter_congr fun i _ => ?_)
  have : (ri i).statistic = (values i).val := ?_
  · rw [this]
  obtain ⟨s, hs⟩ := hri i
  rw [setup (hA' i) (hd' i), PyM.mk_ok_bind] at hs
  obtain ⟨-, -, ⟨kind, h0⟩, -⟩ := C36_pvalue_formula
    (show permutationTest rng' _ _ _ _ _ = _ from hs)
  have h1 := hv i
  have h2 := permutedMatrix_pooled (X := W) o.exponent
    (permAt rng (∑ a, sz a) (randomStateInit rng rs) i)
  unfold permutedMatrix at h2
  dsimp only at h1 h0 h2
  rw [h2, h0] at h1
  simp only [Except.ok.injEq] at h1
  rw [← h1]

example := C41_energy_relabels_observations (env := stdEnv) (rng := shiftRng) (rs := .gen 3)
  (nJobs := some 2) (B := 7) (o := {}) (A := fun a => npMat (exW a)) (by norm_num)
  (fun a => npMat_holds (exW a)) (fun a => by simp [npMat])
  (congrArg PyM.out (energyTest_ok (energyTestCall_mat (by norm_num) (by decide) exW zero_le_one
    (.enum .v)) rfl (by simp) 7))
  (fun i a => npMat (Spec.relabel exW (permAt shiftRng _ 3 i) a)) (fun i a => by simp [npMat])
  (fun i a => npMat_holds _) (rng' := shiftRng) (rs' := .gen 0) (nJobs' := none) (B' := 0)
  (fun i => ⟨1, Spec.energyTestStat .v 1 (Spec.relabel exW (permAt shiftRng _ 3 i))⟩)
  (fun i => ⟨0, by
    rw [show (0 : ℕ) = ((0 : ℕ) : ℤ) from rfl, energyTest_ok (energyTestCall_mat (by norm_num)
      (by decide) _ zero_le_one (.enum .v)) rfl (by simp) 0]
    simp [Spec.permPvalue, Spec.countAbove, stateAt, randomStateInit]
    rfl⟩)

end Dcor.Props

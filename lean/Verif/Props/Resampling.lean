/-
Properties C36-C39, C57: the resampling part of the three permutation tests.

`TestCall` is any call of any of the three public tests, whatever the arrays and options.
-/
import Verif.Proofs.TestCalls
import Verif.Props.Witness

namespace Dcor.Props

open Finset

variable {S : Type} {env : Env} {rng : Rng S} {rs : RandomLike S} {nJobs : Option ℤ}

/-! ### Concrete calls used by the examples -/

/-- A generator with the counter as state: it returns the cyclic shift by the counter. -/
def shiftRng : Rng ℕ where
  permutation s n := ((finRotate n) ^ s, s + 1)
  fresh k := k.getD 0

theorem dcovTestCall_mat {n p q : ℕ} (hn : 0 < n) (v : Fin n → Fin p → ℝ) (w : Fin n → Fin q → ℝ)
    {α : ℝ} (hα : 0 ≤ α) : DcovTestCall (npMat v) (npMat w) α v w :=
  ⟨hn, npMat_holds v, npMat_holds w, hα, by simp [npMat], by simp [npMat]⟩

theorem partialTestCall_mat {n p q r : ℕ} (hn : 3 < n) (u : Fin n → Fin p → ℝ)
    (v : Fin n → Fin q → ℝ) (w : Fin n → Fin r → ℝ) {α : ℝ} (hα : 0 ≤ α) :
    PartialTestCall (npMat u) (npMat v) (npMat w) α u v w :=
  ⟨hn, npMat_holds u, npMat_holds v, npMat_holds w, hα, rfl, rfl, rfl⟩

theorem energyTestCall_mat {k p : ℕ} (hk : 2 ≤ k) {sz : Fin k → ℕ} (hsz : ∀ a, 0 < sz a)
    (X : (a : Fin k) → Fin (sz a) → Fin p → ℝ) {α : ℝ} (hα : 0 ≤ α) (s : EstLike) :
    EnergyTestCall (fun a => npMat (X a)) ⟨α, none, s⟩ X :=
  ⟨hk, fun a => npMat_holds (X a), hsz, fun a => by simp [npMat], hα, rfl⟩

theorem energyTestCall_two {n m p : ℕ} (X : Fin n → Fin p → ℝ) (Y : Fin m → Fin p → ℝ) (hn : 0 < n)
    (hm : 0 < m) {α : ℝ} (hα : 0 ≤ α) (s : EstLike) :
    EnergyTestCall ![npMat X, npMat Y] ⟨α, none, s⟩ (Spec.pair X Y) where
  two := le_rfl
  holds a := by
    fin_cases a
    · exact npMat_holds X
    · exact npMat_holds Y
  pos a := by
    fin_cases a
    · exact hn
    · exact hm
  dtype a := by
    fin_cases a <;> simp [npMat]
  exponent_nonneg := hα
  mean := rfl

/-- The data of the examples: four observations. -/
def exX : Fin 4 → Fin 2 → ℝ := ![![0, 1], ![2, 5], ![1, 1], ![3, 0]]

/-- The data of the examples: four observations. -/
def exY : Fin 4 → Fin 1 → ℝ := ![![0], ![7], ![1], ![2]]

/-- A matrix of the examples. -/
def exX' : Fin 4 → Fin 4 → ℝ := fun i j => (i : ℝ) - (j : ℝ) ^ 2

/-! ### C36 -/

open Classical in
/-- C36: for every matrix, statistic and generator, the p-value is `(k + 1) / (B + 1)`, where `k` is
the number of resamples `i < B` whose statistic is strictly above the observed one; resample `i` is the
matrix with rows and columns reordered by the `i`-th permutation drawn. -/
theorem C36_pvalue_formula {α : Type} {n : ℕ} {matrix : Fin n → Fin n → α}
    {stat : (Fin n → Fin n → α) → Except PyErr Scalar} {B : ℕ} {r : HypothesisTest} {s' : S}
    (h : permutationTest rng matrix stat B rs nJobs = .ok (r, s')) :
    ∃ values : Fin B → Scalar,
      (∀ i : Fin B, stat (fun a b => matrix (permAt rng n (randomStateInit rng rs) i a)
        (permAt rng n (randomStateInit rng rs) i b)) = .ok (values i)) ∧
      (∃ k, stat matrix = .ok ⟨r.statistic, k⟩) ∧
      r.pvalue = (((univ.filter fun i => FP.lt r.statistic (values i).val).card : ℝ) + 1)
        / ((B : ℝ) + 1) := by
  obtain ⟨-, h0, -, -, l, hl, hv, hp⟩ := permutationTest_eq_ok h
  rw [Int.toNat_natCast] at hl hp
  refine ⟨fun i => l[(i : ℕ)], fun i => hv i (by omega), ⟨_, h0⟩, ?_⟩
  rw [hp]
  congr 3
  unfold Spec.countAbove
  refine (card_bij (fun (i : Fin B) _ => (i : ℕ)) ?_ ?_ ?_).symm
  · intro i hi
    rw [mem_filter] at hi ⊢
    refine ⟨mem_range.2 i.2, ?_⟩
    dsimp only
    rw [List.getElem?_eq_getElem (hl.symm ▸ i.2)]
    exact hi.2
  · intro i _ j _ hij
    exact Fin.ext hij
  · intro i hi
    rw [mem_filter, mem_range] at hi
    refine ⟨⟨i, hi.1⟩, ?_, rfl⟩
    rw [mem_filter]
    refine ⟨mem_univ _, ?_⟩
    have := hi.2
    dsimp only at this
    rw [List.getElem?_eq_getElem (hl.symm ▸ hi.1)] at this
    exact this

/-- C36: every p-value returned by a permutation test is one of `1/(B+1), …, (B+1)/(B+1)`; it is 1
without resampling. -/
theorem C36_pvalue_range (c : TestCall) {B : ℕ} {r : HypothesisTest} {s' : S}
    (h : (c.run env rng B rs nJobs).out = .ok (r, s')) :
    (∃ k : ℕ, k ≤ B ∧ r.pvalue = ((k : ℝ) + 1) / ((B : ℝ) + 1)) ∧
      1 / ((B : ℝ) + 1) ≤ r.pvalue ∧ r.pvalue ≤ 1 ∧ (B = 0 → r.pvalue = 1) := by
  rcases c.run_eq env with ⟨e, he⟩ | ⟨α, t, -, ht⟩
  · rw [(he rng B rs nJobs).1] at h
    cases h
  rw [(ht rng B rs nJobs).1] at h
  obtain ⟨-, -, -, -, l, hl, -, hp⟩ := permutationTest_eq_ok h
  rw [Int.toNat_natCast] at hp
  have hk := Spec.countAbove_le r.statistic (fun i => (l[i]?.map Scalar.val).getD .nan) B
  generalize Spec.countAbove _ _ _ = k at hk hp
  have hp' : r.pvalue = ((k : ℝ) + 1) / ((B : ℝ) + 1) := by simpa using hp
  have hB : (0 : ℝ) < (B : ℝ) + 1 := by positivity
  have hk' : (k : ℝ) ≤ B := by exact_mod_cast hk
  refine ⟨⟨k, hk, hp'⟩, ?_, ?_, ?_⟩
  · rw [hp']
    gcongr
    linarith [Nat.cast_nonneg (α := ℝ) k]
  · rw [hp', div_le_one hB]
    linarith
  · rintro rfl
    have : k = 0 := by omega
    rw [hp', this]
    norm_num

/-- With a negative number of resamples a test fails (`num_resamples = -1`) or returns a negative
p-value: such values of `num_resamples` are not rejected. -/
theorem C36_negative_num_resamples (c : TestCall) {B : ℤ} (hB : B < 0) {r : HypothesisTest} {s' : S}
    (h : (c.run env rng B rs nJobs).out = .ok (r, s')) :
    B ≠ -1 ∧ r.pvalue = 1 / ((B : ℝ) + 1) ∧ r.pvalue < 0 := by
  rcases c.run_eq env with ⟨e, he⟩ | ⟨α, t, -, ht⟩
  · rw [(he rng B rs nJobs).1] at h
    cases h
  rw [(ht rng B rs nJobs).1] at h
  obtain ⟨-, -, h1, -, l, hl, -, hp⟩ := permutationTest_eq_ok h
  have hp' : r.pvalue = 1 / ((B : ℝ) + 1) := by
    rw [hp, Int.toNat_of_nonpos hB.le]
    simp [Spec.countAbove]
  refine ⟨by omega, hp', ?_⟩
  rw [hp']
  apply div_neg_of_pos_of_neg one_pos
  have : (B : ℝ) + 1 < 0 := by
    have : B + 1 < 0 := by omega
    exact_mod_cast this
  exact this

/-! ### C37: independence of the resampling arguments -/

/-- C37: the statistic reported does not depend on the number of resamples, the generator, its state, or
the number of jobs. -/
theorem C37_statistic_independent {S' : Type} (c : TestCall) {rng' : Rng S'} {B B' : ℤ}
    {rs' : RandomLike S'} {nJobs' : Option ℤ} {r r' : HypothesisTest} {s : S} {s' : S'}
    (h : (c.run env rng B rs nJobs).out = .ok (r, s))
    (h' : (c.run env rng' B' rs' nJobs').out = .ok (r', s')) : r.statistic = r'.statistic := by
  rcases c.run_eq env with ⟨e, he⟩ | ⟨α, t, -, ht⟩
  · rw [(he rng B rs nJobs).1] at h
    cases h
  rw [(ht rng B rs nJobs).1] at h
  rw [(ht rng' B' rs' nJobs').1] at h'
  obtain ⟨-, h0, -⟩ := permutationTest_eq_ok h
  obtain ⟨-, h0', -⟩ := permutationTest_eq_ok h'
  rw [h0] at h0'
  simpa using h0'

/-! ### C38 -/

/-- C38: if the test returns when its tasks are executed one after the other, then it also returns when
they are executed in parallel, with the same p-value, statistic and final state of the generator, in
whatever order the tasks finish. -/
theorem C38_parallel_same_result (c : TestCall) {B : ℤ} {v : HypothesisTest × S}
    (h : (c.run env rng B rs nJobs).out = .ok v) (out : Except PyErr (HypothesisTest × S)) :
    c.Outcome env rng B rs nJobs out ↔ out = .ok v := by
  rcases c.run_eq env with ⟨e, he⟩ | ⟨α, t, -, ht⟩
  · rw [(he rng B rs nJobs).1] at h
    cases h
  rw [(ht rng B rs nJobs).1] at h
  rw [(ht rng B rs nJobs).2]
  exact permutationTestRun_ok h out

/-- C38: if the sequential execution fails, every parallel execution fails, and there is one. -/
theorem C38_parallel_failure (c : TestCall) {B : ℤ} {e : PyErr}
    (h : (c.run env rng B rs nJobs).out = .error e) :
    (∃ out, c.Outcome env rng B rs nJobs out) ∧
      ∀ out, c.Outcome env rng B rs nJobs out → ∃ e', out = .error e' := by
  rcases c.run_eq env with ⟨e', he⟩ | ⟨α, t, -, ht⟩
  · refine ⟨⟨_, ((he rng B rs nJobs).2 _).2 rfl⟩, fun out ho => ⟨e', ((he rng B rs nJobs).2 _).1 ho⟩⟩
  rw [(ht rng B rs nJobs).1] at h
  simp only [(ht rng B rs nJobs).2]
  exact ⟨permutationTestRun_exists, fun out ho => permutationTestRun_error h ho⟩

/-- C38: the number of jobs is irrelevant, except that zero is rejected. -/
theorem C38_n_jobs (c : TestCall) {B : ℤ} {nJobs' : Option ℤ} (h : nJobs ≠ some 0)
    (h' : nJobs' ≠ some 0) :
    (c.run env rng B rs nJobs).out = (c.run env rng B rs nJobs').out ∧
      ∀ v, (c.run env rng B rs (some 0)).out ≠ .ok v := by
  rcases c.run_eq env with ⟨e', he⟩ | ⟨α, t, -, ht⟩
  · rw [(he rng B rs nJobs).1, (he rng B rs nJobs').1, (he rng B rs (some 0)).1]
    exact ⟨rfl, fun v hv => by cases hv⟩
  rw [(ht rng B rs nJobs).1, (ht rng B rs nJobs').1, (ht rng B rs (some 0)).1]
  constructor
  · unfold permutationTest
    cases t.stat t.matrix with
    | error e => rfl
    | ok v => rw [Except.ok_bind', Except.ok_bind', if_neg h, if_neg h']
  · rintro ⟨r, s'⟩ hv
    exact (permutationTest_eq_ok hv).1 rfl

/-- C38: executions of the pool of workers cannot get stuck or run forever: as long as tasks are left
there is a next step, and every step decreases a natural number. -/
theorem C38_pool_terminates {R : Type} {n B : ℕ} {task : Equiv.Perm (Fin n) → R} :
    (∀ st : ParState S (Equiv.Perm (Fin n)) R, ¬ (B ≤ st.issued ∧ st.running = []) →
      ∃ st', ParStep rng n B task st st') ∧
    ∀ st st', ParStep rng n B task st st' →
      2 * (B - st'.issued) + st'.running.length < 2 * (B - st.issued) + st.running.length :=
  ⟨parStep_progress, fun _ _ => parStep_decreases⟩

/-! ### C39 -/

/-- C39: a test draws exactly `B` permutations, each of the number of rows, from the given generator:
that is what a generator that records its use records. Recording changes nothing else. -/
theorem C39_draws (c : TestCall) {n : ℕ} (hn : c.Rows n) {B : ℕ} {s : S} {l : List ℕ}
    {r : HypothesisTest} {s' : S × List ℕ}
    (h : (c.run env rng.logged B (.gen (s, l)) nJobs).out = .ok (r, s')) :
    s'.2 = List.replicate B n ++ l ∧ (c.run env rng B (.gen s) nJobs).out = .ok (r, s'.1) := by
  rcases c.run_eq env with ⟨e', he⟩ | ⟨α, t, htn, ht⟩
  · rw [(he rng.logged B (.gen (s, l)) nJobs).1] at h
    cases h
  rw [(ht rng.logged B (.gen (s, l)) nJobs).1] at h
  rw [(ht rng B (.gen s) nJobs).1, ← htn n hn]
  have h1 := permutationTest_congr rng (.gen s) (fun i _ => permAt_logged t.n s l i) h
  obtain ⟨-, -, -, hs', -⟩ := permutationTest_eq_ok h
  have hs : s' = (stateAt rng t.n s B, List.replicate B t.n ++ l) := by
    rw [hs', Int.toNat_natCast]
    exact stateAt_logged t.n s l B
  rw [hs]
  exact ⟨rfl, h1⟩

/-- C39: the result depends on the generator only through the permutations it produces, in order. -/
theorem C39_only_permutations {S' : Type} (c : TestCall) {n : ℕ} (hn : c.Rows n) {B : ℕ}
    {rng' : Rng S'} {rs' : RandomLike S'}
    (hp : ∀ i < B, permAt rng n (randomStateInit rng rs) i
      = permAt rng' n (randomStateInit rng' rs') i) {r : HypothesisTest} {s : S}
    (h : (c.run env rng B rs nJobs).out = .ok (r, s)) :
    ∃ s', (c.run env rng' B rs' nJobs).out = .ok (r, s') := by
  rcases c.run_eq env with ⟨e', he⟩ | ⟨α, t, htn, ht⟩
  · rw [(he rng B rs nJobs).1] at h
    cases h
  rw [(ht rng B rs nJobs).1] at h
  rw [(ht rng' B rs' nJobs).1]
  have hn' := htn n hn
  subst hn'
  exact ⟨_, permutationTest_congr rng' rs' (by rwa [Int.toNat_natCast]) h⟩

/-- C39: a seed is equivalent to a new generator initialised with it. -/
theorem C39_seed (c : TestCall) (B : ℤ) (k : Option ℕ) :
    c.run env rng B (.seed k) nJobs = c.run env rng B (.gen (rng.fresh k)) nJobs := by
  cases c <;> rfl

/-! ### C57 -/

/-- C57: a statistic that is not a number gets the smallest p-value possible. -/
theorem C57_nan_gives_smallest_pvalue (c : TestCall) {B : ℕ} {r : HypothesisTest} {s' : S}
    (h : (c.run env rng B rs nJobs).out = .ok (r, s')) (hr : r.statistic = .nan) :
    r.pvalue = 1 / ((B : ℝ) + 1) := by
  rcases c.run_eq env with ⟨e', he⟩ | ⟨α, t, -, ht⟩
  · rw [(he rng B rs nJobs).1] at h
    cases h
  rw [(ht rng B rs nJobs).1] at h
  obtain ⟨-, -, -, -, l, -, -, hp⟩ := permutationTest_eq_ok h
  rw [hp, hr, Spec.countAbove_nan]
  simp

/-- C57: this happens: the U-statistic energy test of a single observation against two others, with 99
resamples, returns NaN with p-value 0.01, whatever the generator. -/
theorem C57_undefined_statistic_looks_significant (rng : Rng S) (rs : RandomLike S) :
    ∃ s', (energyTest stdEnv rng [npMat ![![(0 : ℝ)]], npMat ![![1], ![(1 : ℝ)]]] 99
      ⟨1, none, .enum .u⟩ rs (some 1)).out = .ok (⟨1 / 100, .nan⟩, s') := by
  have hc : EnergyTestCall ![npMat ![![(0 : ℝ)]], npMat ![![1], ![(1 : ℝ)]]] ⟨1, none, .enum .u⟩
      (Spec.pair ![![(0 : ℝ)]] ![![1], ![(1 : ℝ)]]) := energyTestCall_two _ _ one_pos two_pos
    zero_le_one _
  have h := energyTest_ok (env := stdEnv) (rng := rng) (rs := rs) (nJobs := some 1) hc (s := .u) rfl
    (by simp) 99
  have hst : ∀ X : (a : Fin 2) → Fin (![1, 2] a) → Fin 1 → ℝ,
      Spec.energyTestStat .u 1 X = .nan := by
    intro X
    rw [Spec.energyTestStat_two]
    unfold Spec.energyTestPair Spec.energyFP
    dsimp only
    rw [if_pos (Or.inl (by simp))]
    rfl
  refine ⟨stateAt rng (∑ a, ![1, 2] a) (randomStateInit rng rs) 99, ?_⟩
  refine (congrArg PyM.out h).trans ?_
  simp only [hst]
  have hp : ∀ v : ℕ → FP ℝ, Spec.permPvalue .nan v 99 = 1 / 100 := by
    intro v
    unfold Spec.permPvalue
    rw [Spec.countAbove_nan]
    norm_num
  rw [hp]

private theorem nJobs_ne_zero {c : TestCall} {B : ℕ} {v : HypothesisTest × S}
    (h : (c.run env rng B rs nJobs).out = .ok v) : nJobs ≠ some 0 := by
  rintro rfl
  exact (C38_n_jobs c (nJobs := some 1) (nJobs' := some 1) (by simp) (by simp)).2 _ h

/-- C57, what holds: the statistic of a supported call of `distance_covariance_test` is a number.
Missing: an undefined statistic does not lead to an undefined p-value. -/
theorem C57_dcov_statistic_defined_partial {n p q : ℕ} {x y : Arr} {α : ℝ} {X : Fin n → Fin p → ℝ}
    {Y : Fin n → Fin q → ℝ} (hc : DcovTestCall x y α X Y) {B : ℕ} {r : HypothesisTest} {s' : S}
    (h : (distanceCovarianceTest env rng x y B α rs nJobs).out = .ok (r, s')) :
    ∃ v, r.statistic = .fin v := by
  have := congrArg PyM.out (distanceCovarianceTest_ok (env := env) (rng := rng) (rs := rs) hc
    (nJobs_ne_zero (c := .dcov x y α) h) B)
  rw [h] at this
  cases this
  exact ⟨_, rfl⟩

/-- C57, what holds: the statistic of a supported call of `partial_distance_covariance_test` is a
number. -/
theorem C57_pdcov_statistic_defined_partial {n p q t : ℕ} {x y z : Arr} {α : ℝ}
    {X : Fin n → Fin p → ℝ} {Y : Fin n → Fin q → ℝ} {Z : Fin n → Fin t → ℝ}
    (hc : PartialTestCall x y z α X Y Z) {B : ℕ} {r : HypothesisTest} {s' : S}
    (h : (partialDistanceCovarianceTest env rng x y z B α rs nJobs).out = .ok (r, s')) :
    ∃ v, r.statistic = .fin v := by
  have := congrArg PyM.out (partialDistanceCovarianceTest_ok (env := env) (rng := rng) (rs := rs) hc
    (nJobs_ne_zero (c := .partialDcov x y z α) h) B)
  rw [h] at this
  cases this
  exact ⟨_, rfl⟩

/-- C57, what holds: the statistic of a supported call of `energy_test` is a number with the
V-statistic, and with the U-statistic if every sample has at least two observations. -/
theorem C57_energy_statistic_defined_partial {k p : ℕ} {A : Fin k → Arr} {o : EnergyOpts}
    {sz : Fin k → ℕ} {W : (a : Fin k) → Fin (sz a) → Fin p → ℝ} (hc : EnergyTestCall A o W)
    {s : EstStat} (hs : o.stat.resolve env = .ok s) (h1 : s = .u → ∀ a, 1 < sz a) {B : ℕ}
    {r : HypothesisTest} {s' : S}
    (h : (energyTest env rng (List.ofFn A) B o rs nJobs).out = .ok (r, s')) :
    ∃ v, r.statistic = .fin v := by
  have := congrArg PyM.out (energyTest_ok (env := env) (rng := rng) (rs := rs) hc hs
    (nJobs_ne_zero (c := .energy (List.ofFn A) o) h) B)
  rw [h] at this
  have hr : r.statistic = Spec.energyTestStat s o.exponent W := by
    cases this
    rfl
  have hpair : ∀ a b, ∃ v, Spec.energyTestPair s o.exponent (W a) (W b) = .fin v := by
    intro a b
    unfold Spec.energyTestPair Spec.energyFP
    cases s with
    | v =>
      dsimp only
      rw [if_neg (by have := hc.pos a; have := hc.pos b; omega)]
      exact ⟨_, rfl⟩
    | u =>
      dsimp only
      rw [if_neg (by have := h1 rfl a; have := h1 rfl b; omega)]
      exact ⟨_, rfl⟩
  choose f hf using hpair
  refine ⟨∑ a, ∑ b ∈ univ.filter (a < ·), f a b, ?_⟩
  rw [hr]
  unfold Spec.energyTestStat
  simp only [hf, FP.fin_sum]

/-! ### Concrete instances -/

private def exDcov (B : ℕ) := congrArg PyM.out (distanceCovarianceTest_ok (env := stdEnv)
  (rng := shiftRng) (rs := .seed (some 3)) (nJobs := some 2)
  (dcovTestCall_mat (by norm_num) exX exY (α := 1) zero_le_one) (by simp) B)

private def exDcovLog (B : ℕ) := congrArg PyM.out (distanceCovarianceTest_ok (env := stdEnv)
  (rng := shiftRng.logged) (rs := .gen (7, [])) (nJobs := none)
  (dcovTestCall_mat (by norm_num) exX exY (α := 1) zero_le_one) (by simp) B)

private def exPartial (B : ℕ) := congrArg PyM.out (partialDistanceCovarianceTest_ok (env := stdEnv)
  (rng := shiftRng) (rs := .seed (some 3)) (nJobs := some 2)
  (partialTestCall_mat (by norm_num) exX exY exX (α := 1) zero_le_one) (by simp) B)

private def exEnergy (B : ℕ) := congrArg PyM.out (energyTest_ok (env := stdEnv)
  (rng := shiftRng) (rs := .gen 7) (nJobs := none) (energyTestCall_two exX exX (by norm_num)
    (by norm_num) (α := 1) zero_le_one (.enum .u)) (s := .u) rfl (by simp) B)

example := C36_pvalue_range (.dcov (npMat exX) (npMat exY) 1) (exDcov 99)
example := C36_pvalue_range (.energy [npMat exX, npMat exX] ⟨1, none, .enum .u⟩) (exEnergy 0)
example := C37_statistic_independent (.dcov (npMat exX) (npMat exY) 1) (exDcov 99) (exDcovLog 3)
example := C38_parallel_same_result (.dcov (npMat exX) (npMat exY) 1) (exDcov 99)
example := C38_n_jobs (env := stdEnv) (rng := shiftRng) (rs := .gen 7) (nJobs := none)
  (nJobs' := some 8) (B := 9) (.dcov (npMat exX) (npMat exY) 1) (by simp) (by simp)
/-- A failing call: samples of different lengths. -/
example := C38_parallel_failure (env := stdEnv) (rng := shiftRng) (rs := .gen 7) (nJobs := none)
  (B := 9) (e := .valueError) (.dcov (npMat exX) (npMat ![![(1 : ℝ)]]) 1) rfl
example := C39_draws (.dcov (npMat exX) (npMat exY) 1) (n := 4) ⟨rfl, rfl⟩ (exDcovLog 12)
example := C39_only_permutations (.dcov (npMat exX) (npMat exY) 1) (n := 4) ⟨rfl, rfl⟩ (B := 12)
  (rng := shiftRng.logged) (rs := .gen (7, [])) (rng' := shiftRng) (rs' := .gen 7) (fun i _ => permAt_logged 4 7 [] i) (exDcovLog 12)
example := C36_pvalue_formula (permutationTest_ok (rng := shiftRng) (rs := .gen 1) (nJobs := none)
  (matrix := exX') (stat := fun m => .ok ⟨.fin (m 0 1), .npFloat⟩) (by simp) 20 rfl
  (k := fun _ => .npFloat) fun i _ => rfl)
/-- Three resamples less than none: the call returns. -/
example : ∃ r s', ((TestCall.dcov (npMat exX) (npMat exY) 1).run stdEnv shiftRng (-3) (.gen 0)
    (some 1)).out = .ok (r, s') := by
  have h := dcovTestCall_mat (by norm_num) exX exY (α := 1) zero_le_one
  refine ⟨⟨-1 / 2, .fin (Spec.dcovStat 1 exX exY)⟩, 0, ?_⟩
  show (PyM.permutationTest _ _ _ _ _).out = _
  rw [setup_ok (t := _) (by rw [dcovTestSetup_ok (env := stdEnv) h])]
  unfold permutationTest
  dsimp only
  rw [dcovTestStatistic_ok h]
  rw [show (-3 : ℤ).toNat = 0 from rfl]
  simp only [Except.ok_bind', drawPermutations, List.map_nil, sequenceResults, finishTest]
  norm_num
  rfl
example := C57_nan_gives_smallest_pvalue (.energy [npMat ![![(0 : ℝ)]], npMat ![![1], ![(1 : ℝ)]]]
  ⟨1, none, .enum .u⟩) (B := 99) (env := stdEnv)
  (C57_undefined_statistic_looks_significant shiftRng (.gen 0)).choose_spec rfl
example := C57_dcov_statistic_defined_partial
  (dcovTestCall_mat (by norm_num) exX exY (α := 1) zero_le_one) (exDcov 12)
example := C57_pdcov_statistic_defined_partial
  (partialTestCall_mat (by norm_num) exX exY exX (α := 1) zero_le_one) (exPartial 12)
example := C57_energy_statistic_defined_partial (env := stdEnv) (energyTestCall_two exX exX (by norm_num)
  (by norm_num) (α := 1) zero_le_one (.enum .u)) (s := .u) rfl
  (fun _ a => by fin_cases a <;> simp) (exEnergy 12)

end Dcor.Props

/-
Property C40: validity of the permutation tests.

The null hypothesis is that all labellings `π` of the observations are equally likely; the resampling
permutations `σ` are independent and uniform. Probabilities are counts of pairs `ω = (π, σ)`.
-/
import Verif.Proofs.Exchange
import Verif.Props.Homogeneity
import Mathlib.Data.Fintype.Perm

namespace Dcor.Props

open Finset

variable {env : Env} {nJobs : Option ℤ} {n p q B : ℕ} {α : ℝ}

/-! ### Distance covariance test -/

section Dcov

variable {X : Fin n → Fin p → ℝ} {Y : Fin n → Fin q → ℝ} {xs : Equiv.Perm (Fin n) → Arr} {y : Arr}

private theorem dcov_level (hc : ∀ π, DcovTestCall (xs π) y α (fun k => X (π k)) Y)
    (hj : nJobs ≠ some 0) :
    ∃ (t : Equiv.Perm (Fin n) → ℝ) (pv : Equiv.Perm (Fin n) × (Fin B → Equiv.Perm (Fin n)) → ℝ),
      (∀ ω, ∃ f : ℕ → FP ℝ, (∀ i : Fin B, f i = .fin (t (ω.1 * ω.2 i))) ∧
        pv ω = Spec.permPvalue (.fin (t ω.1)) f B) ∧
      ∀ ω, ∃ s, (distanceCovarianceTest env (Rng.replay ω.2) (xs ω.1) y B α (.gen 0) nJobs).out
        = .ok (⟨pv ω, .fin (t ω.1)⟩, s) := by
  refine ⟨fun π => Spec.dcovStat α (fun k => X (π k)) Y, fun ω => Spec.permPvalue
    (.fin (Spec.dcovStat α (fun k => X (ω.1 k)) Y)) (fun i => .fin (Spec.dcovStat α
      (fun k => X (ω.1 (permAt (Rng.replay ω.2) n 0 i k))) Y)) B, fun ω => ⟨_, fun i => ?_, rfl⟩,
    fun ω => ?_⟩
  · dsimp only
    rw [permAt_replay]
    rfl
  · rw [distanceCovarianceTest_ok (hc ω.1) hj B]
    exact ⟨_, rfl⟩

open Classical in
/-- C40 is violated by the code, which counts only resamples *strictly* above the observed statistic:
for all samples, all `B` and `1 ≤ k ≤ B`, `distance_covariance_test` returns a p-value of at most
`k/(B+1)` with a probability that is *above* `k/(B+1)`. -/
theorem C40_dcov_level_exceeds_nominal
    (hc : ∀ π, DcovTestCall (xs π) y α (fun k => X (π k)) Y) (hj : nJobs ≠ some 0) {k : ℕ}
    (hk : 0 < k) (hkB : k ≤ B) :
    k * Fintype.card (Equiv.Perm (Fin n) × (Fin B → Equiv.Perm (Fin n)))
      < (B + 1) * (univ.filter fun ω : Equiv.Perm (Fin n) × (Fin B → Equiv.Perm (Fin n)) =>
        ∃ r s, (distanceCovarianceTest env (Rng.replay ω.2) (xs ω.1) y B α (.gen 0) nJobs).out
          = .ok (r, s) ∧ r.pvalue ≤ (k : ℝ) / ((B : ℝ) + 1)).card := by
  obtain ⟨t, pv, h1, h2⟩ := dcov_level (env := env) (B := B) hc hj
  refine lt_of_lt_of_eq (level_exceeds t h1 hk hkB) ?_
  congr 1
  refine congrArg card (Finset.ext fun ω => ?_)
  obtain ⟨s, hs⟩ := h2 ω
  rw [mem_filter, mem_filter]
  refine and_congr_right fun _ => ⟨fun h => ⟨_, s, hs, h⟩, ?_⟩
  rintro ⟨r, s', hr, h⟩
  rw [hs] at hr
  cases hr
  exact h

open Classical in
/-- C40, what holds: the probability of a p-value of at most `k/(B+1)` is at most `k/(B+1)` plus the
probability that the statistic of some resample is equal to the observed statistic. Missing: without
the second term the claim is false, see `C40_dcov_level_exceeds_nominal`. -/
theorem C40_dcov_level_partial
    (hc : ∀ π, DcovTestCall (xs π) y α (fun k => X (π k)) Y) (hj : nJobs ≠ some 0) (k : ℕ) :
    (B + 1) * (univ.filter fun ω : Equiv.Perm (Fin n) × (Fin B → Equiv.Perm (Fin n)) =>
        ∃ r s, (distanceCovarianceTest env (Rng.replay ω.2) (xs ω.1) y B α (.gen 0) nJobs).out
          = .ok (r, s) ∧ r.pvalue ≤ (k : ℝ) / ((B : ℝ) + 1)).card
      ≤ k * Fintype.card (Equiv.Perm (Fin n) × (Fin B → Equiv.Perm (Fin n)))
        + (B + 1) * (univ.filter fun ω : Equiv.Perm (Fin n) × (Fin B → Equiv.Perm (Fin n)) =>
          ∃ i r s r' s',
            (distanceCovarianceTest env (Rng.replay ω.2) (xs ω.1) y B α (.gen 0) nJobs).out
              = .ok (r, s) ∧
            (distanceCovarianceTest env (Rng.replay ω.2) (xs (ω.1 * ω.2 i)) y B α (.gen 0) nJobs).out
              = .ok (r', s') ∧ r'.statistic = r.statistic).card := by
  obtain ⟨t, pv, h1, h2⟩ := dcov_level (env := env) (B := B) hc hj
  have h3 : ∀ (ω : Equiv.Perm (Fin n) × (Fin B → Equiv.Perm (Fin n))) π, ∃ r s,
      (distanceCovarianceTest env (Rng.replay ω.2) (xs π) y B α (.gen 0) nJobs).out = .ok (r, s) ∧
        r.statistic = .fin (t π) := by
    intro ω π
    obtain ⟨s, hs⟩ := h2 (π, ω.2)
    exact ⟨_, s, hs, rfl⟩
  refine le_of_eq_of_le ?_ ((level_le t h1 k).trans (le_of_eq ?_))
  · congr 1
    refine congrArg card (Finset.ext fun ω => ?_)
    obtain ⟨s, hs⟩ := h2 ω
    rw [mem_filter, mem_filter]
    refine and_congr_right fun _ => ⟨?_, fun h => ⟨_, s, hs, h⟩⟩
    rintro ⟨r, s', hr, h⟩
    rw [hs] at hr
    cases hr
    exact h
  · congr 2
    refine congrArg card (Finset.ext fun ω => ?_)
    rw [mem_filter, mem_filter]
    refine and_congr_right fun _ => ⟨?_, ?_⟩
    · rintro ⟨i, hi⟩
      obtain ⟨r, s, hr, hv⟩ := h3 ω ω.1
      obtain ⟨r', s', hr', hv'⟩ := h3 ω (ω.1 * ω.2 i)
      exact ⟨i, r, s, r', s', hr, hr', by rw [hv, hv', hi]⟩
    · rintro ⟨i, r, s, r', s', hr, hr', he⟩
      obtain ⟨r2, s2, hr2, hv⟩ := h3 ω ω.1
      obtain ⟨r3, s3, hr3, hv'⟩ := h3 ω (ω.1 * ω.2 i)
      rw [hr] at hr2
      rw [hr'] at hr3
      cases hr2
      cases hr3
      rw [hv, hv'] at he
      exact ⟨i, FP.fin.inj he⟩

/-- C40, the extreme case: for a constant sample, where independence holds whatever the other sample
is, `distance_covariance_test` returns the smallest possible p-value `1/(B+1)`. -/
theorem C40_dcov_constant_sample {S : Type} {rng : Rng S} {rs : RandomLike S} {x : Arr}
    {c : Fin p → ℝ} (hc : DcovTestCall x y α (fun _ : Fin n => c) Y) (hj : nJobs ≠ some 0) (B : ℕ) :
    ∃ r s, (distanceCovarianceTest env rng x y B α rs nJobs).out = .ok (r, s) ∧
      r.pvalue = 1 / ((B : ℝ) + 1) := by
  refine ⟨_, _, congrArg PyM.out (distanceCovarianceTest_ok hc hj B), ?_⟩
  simp [Spec.permPvalue, Spec.countAbove, FP.lt]

example (B k : ℕ) (hk : 0 < k) (hkB : k ≤ B) := C40_dcov_level_exceeds_nominal (env := stdEnv)
  (nJobs := none)
  (fun π => dcovTestCall_mat (by norm_num) (fun k => exX (π k)) exY zero_le_one) (by simp)
  hk hkB
example (B : ℕ) := C40_dcov_level_partial (env := stdEnv) (nJobs := none) (B := B)
  (fun π => dcovTestCall_mat (by norm_num) (fun k => exX (π k)) exY zero_le_one) (by simp) 5
example := C40_dcov_constant_sample (env := stdEnv) (rng := shiftRng) (rs := .gen 0) (nJobs := none)
  (dcovTestCall_mat (by norm_num) (fun _ => ![3]) exY zero_le_one) (by simp) 99

end Dcov

/-! ### Energy test -/

section Energy

variable {k' : ℕ} {sz : Fin k' → ℕ} {W : (a : Fin k') → Fin (sz a) → Fin p → ℝ} {o : EnergyOpts}
  {As : Equiv.Perm (Fin (∑ a, sz a)) → Fin k' → Arr}

private theorem relabel_mul (π σ : Equiv.Perm (Fin (∑ a, sz a))) :
    Spec.relabel (Spec.relabel W π) σ = Spec.relabel W (π * σ) := by
  funext a i
  unfold Spec.relabel
  have := congrFun (Spec.pooled_relabel (X := W) π) (σ (finSigmaFinEquiv ⟨a, i⟩))
  unfold Spec.relabel at this
  rw [this]
  rfl

private theorem energyV_defined (hpos : ∀ a, 0 < sz a) (α : ℝ)
    (W : (a : Fin k') → Fin (sz a) → Fin p → ℝ) :
    ∃ v, Spec.energyTestStat .v α W = .fin v := by
  refine ⟨∑ a, ∑ b ∈ univ.filter (a < ·), (sz a : ℝ) * sz b / (sz a + sz b)
    * Spec.energyV α (W a) (W b), ?_⟩
  unfold Spec.energyTestStat
  rw [← FP.fin_sum]
  refine sum_congr rfl fun a _ => ?_
  rw [← FP.fin_sum]
  refine sum_congr rfl fun b _ => ?_
  have ha := hpos a
  have hb := hpos b
  unfold Spec.energyTestPair Spec.energyFP
  dsimp only
  rw [if_neg (by omega), FP.fin_mul]

private theorem energy_level (hc : ∀ π, EnergyTestCall (As π) o (Spec.relabel W π))
    (hs : o.stat.resolve env = .ok .v) (hj : nJobs ≠ some 0) :
    ∃ (t : Equiv.Perm (Fin (∑ a, sz a)) → ℝ)
      (pv : Equiv.Perm (Fin (∑ a, sz a)) × (Fin B → Equiv.Perm (Fin (∑ a, sz a))) → ℝ),
      (∀ ω, ∃ f : ℕ → FP ℝ, (∀ i : Fin B, f i = .fin (t (ω.1 * ω.2 i))) ∧
        pv ω = Spec.permPvalue (.fin (t ω.1)) f B) ∧
      ∀ ω, ∃ s, (energyTest env (Rng.replay ω.2) (List.ofFn (As ω.1)) B o (.gen 0) nJobs).out
        = .ok (⟨pv ω, .fin (t ω.1)⟩, s) := by
  choose t ht using fun π => energyV_defined (hc π).pos o.exponent (Spec.relabel W π)
  refine ⟨t, fun ω => Spec.permPvalue (.fin (t ω.1)) (fun i => .fin (t (ω.1 *
    permAt (Rng.replay ω.2) (∑ a, sz a) 0 i))) B, fun ω => ⟨_, fun i => ?_, rfl⟩, fun ω => ?_⟩
  · rw [permAt_replay]
  · rw [energyTest_ok (hc ω.1) hs hj B]
    simp only [relabel_mul, ht]
    exact ⟨_, rfl⟩

open Classical in
/-- C40 is violated by `energy_test` (with V-statistics) in the same way. -/
theorem C40_energy_level_exceeds_nominal (hc : ∀ π, EnergyTestCall (As π) o (Spec.relabel W π))
    (hs : o.stat.resolve env = .ok .v) (hj : nJobs ≠ some 0) {k : ℕ} (hk : 0 < k) (hkB : k ≤ B) :
    k * Fintype.card (Equiv.Perm (Fin (∑ a, sz a)) × (Fin B → Equiv.Perm (Fin (∑ a, sz a))))
      < (B + 1) * (univ.filter fun
          ω : Equiv.Perm (Fin (∑ a, sz a)) × (Fin B → Equiv.Perm (Fin (∑ a, sz a))) =>
        ∃ r s, (energyTest env (Rng.replay ω.2) (List.ofFn (As ω.1)) B o (.gen 0) nJobs).out
          = .ok (r, s) ∧ r.pvalue ≤ (k : ℝ) / ((B : ℝ) + 1)).card := by
  obtain ⟨t, pv, h1, h2⟩ := energy_level (B := B) hc hs hj
  refine lt_of_lt_of_eq (level_exceeds t h1 hk hkB) ?_
  congr 1
  refine congrArg card (Finset.ext fun ω => ?_)
  obtain ⟨s, hs⟩ := h2 ω
  rw [mem_filter, mem_filter]
  refine and_congr_right fun _ => ⟨fun h => ⟨_, s, hs, h⟩, ?_⟩
  rintro ⟨r, s', hr, h⟩
  rw [hs] at hr
  cases hr
  exact h

open Classical in
/-- C40, what holds for `energy_test` with V-statistics: the probability of a p-value of at most
`k/(B+1)` is at most `k/(B+1)` plus the probability that the statistic of some resample is equal to the
observed statistic. Missing: as for `C40_dcov_level_partial`. -/
theorem C40_energy_level_partial (hc : ∀ π, EnergyTestCall (As π) o (Spec.relabel W π))
    (hs : o.stat.resolve env = .ok .v) (hj : nJobs ≠ some 0) (k : ℕ) :
    (B + 1) * (univ.filter fun
          ω : Equiv.Perm (Fin (∑ a, sz a)) × (Fin B → Equiv.Perm (Fin (∑ a, sz a))) =>
        ∃ r s, (energyTest env (Rng.replay ω.2) (List.ofFn (As ω.1)) B o (.gen 0) nJobs).out
          = .ok (r, s) ∧ r.pvalue ≤ (k : ℝ) / ((B : ℝ) + 1)).card
      ≤ k * Fintype.card (Equiv.Perm (Fin (∑ a, sz a)) × (Fin B → Equiv.Perm (Fin (∑ a, sz a))))
        + (B + 1) * (univ.filter fun
          ω : Equiv.Perm (Fin (∑ a, sz a)) × (Fin B → Equiv.Perm (Fin (∑ a, sz a))) =>
          ∃ i r s r' s',
            (energyTest env (Rng.replay ω.2) (List.ofFn (As ω.1)) B o (.gen 0) nJobs).out
              = .ok (r, s) ∧
            (energyTest env (Rng.replay ω.2) (List.ofFn (As (ω.1 * ω.2 i))) B o (.gen 0) nJobs).out
              = .ok (r', s') ∧ r'.statistic = r.statistic).card := by
  obtain ⟨t, pv, h1, h2⟩ := energy_level (B := B) hc hs hj
  have h3 : ∀ (ω : Equiv.Perm (Fin (∑ a, sz a)) × (Fin B → Equiv.Perm (Fin (∑ a, sz a)))) π, ∃ r s,
      (energyTest env (Rng.replay ω.2) (List.ofFn (As π)) B o (.gen 0) nJobs).out = .ok (r, s) ∧
        r.statistic = .fin (t π) := by
    intro ω π
    obtain ⟨s, hs⟩ := h2 (π, ω.2)
    exact ⟨_, s, hs, rfl⟩
  refine le_of_eq_of_le ?_ ((level_le t h1 k).trans (le_of_eq ?_))
  · congr 1
    refine congrArg card (Finset.ext fun ω => ?_)
    obtain ⟨s, hs⟩ := h2 ω
    rw [mem_filter, mem_filter]
    refine and_congr_right fun _ => ⟨?_, fun h => ⟨_, s, hs, h⟩⟩
    rintro ⟨r, s', hr, h⟩
    rw [hs] at hr
    cases hr
    exact h
  · congr 2
    refine congrArg card (Finset.ext fun ω => ?_)
    rw [mem_filter, mem_filter]
    refine and_congr_right fun _ => ⟨?_, ?_⟩
    · rintro ⟨i, hi⟩
      obtain ⟨r, s, hr, hv⟩ := h3 ω ω.1
      obtain ⟨r', s', hr', hv'⟩ := h3 ω (ω.1 * ω.2 i)
      exact ⟨i, r, s, r', s', hr, hr', by rw [hv, hv', hi]⟩
    · rintro ⟨i, r, s, r', s', hr, hr', he⟩
      obtain ⟨r2, s2, hr2, hv⟩ := h3 ω ω.1
      obtain ⟨r3, s3, hr3, hv'⟩ := h3 ω (ω.1 * ω.2 i)
      rw [hr] at hr2
      rw [hr'] at hr3
      cases hr2
      cases hr3
      rw [hv, hv'] at he
      exact ⟨i, FP.fin.inj he⟩

private def exV : (a : Fin 2) → Fin (![2, 1] a) → Fin 2 → ℝ := fun a i j => (a : ℝ) * i - j

example (B k : ℕ) (hk : 0 < k) (hkB : k ≤ B) := C40_energy_level_exceeds_nominal (env := stdEnv)
  (nJobs := none)
  (fun π => energyTestCall_mat le_rfl (by decide) (Spec.relabel exV π) zero_le_one (.enum .v)) rfl
  (by simp) hk hkB
example (B : ℕ) := C40_energy_level_partial (env := stdEnv) (nJobs := none) (B := B)
  (fun π => energyTestCall_mat le_rfl (by decide) (Spec.relabel exV π) zero_le_one (.enum .v)) rfl
  (by simp) 5

end Energy

end Dcor.Props

/-
Property C98: power of the permutation tests.

Probabilities are counts of the sequences `σ` of resampling permutations, as in C40; here the observations are fixed.
-/
import Verif.Proofs.Power
import Verif.Props.Homogeneity

namespace Dcor.Props

open Finset

variable {env : Env} {nJobs : Option ℤ} {n p q B k : ℕ} {α : ℝ}

/-! ### Distance covariance test -/

section Dcov

variable {X : Fin n → Fin p → ℝ} {Y : Fin n → Fin q → ℝ} {x y : Arr}

/-- C98: the p-value of `distance_covariance_test`, averaged over all sequences of permutations, is at most
`(1 + B * D / T) / (B + 1)`, where `T` is the statistic and `D` is `n / (n - 1)` times the product of the mean distances
within the two samples. With a probability of at least `1 - B * D / T` it is `1 / (B + 1)`, the smallest p-value. -/
theorem C98_dcov_power (hc : DcovTestCall x y α X Y) (hj : nJobs ≠ some 0) (hn : 2 ≤ n) (hα : 0 < α) (hα2 : α ≤ 2) :
    ∃ (T : ℝ) (pv : (Fin B → Equiv.Perm (Fin n)) → ℝ),
      (∀ σ, ∃ s, (distanceCovarianceTest env (Rng.replay σ) x y B α (.gen 0) nJobs).out = .ok (⟨pv σ, .fin T⟩, s)) ∧
      (0 < T → (∑ σ, pv σ) / n.factorial ^ B
        ≤ (1 + B * (n / (n - 1) * ((∑ i, ∑ j, Spec.dist α (X i) (X j)) / n ^ 2)
          * ((∑ i, ∑ j, Spec.dist α (Y i) (Y j)) / n ^ 2) / T)) / (B + 1)) ∧
      (0 < T → ((univ.filter fun σ => pv σ ≠ 1 / ((B : ℝ) + 1)).card : ℝ) / n.factorial ^ B
        ≤ B * (n / (n - 1) * ((∑ i, ∑ j, Spec.dist α (X i) (X j)) / n ^ 2)
          * ((∑ i, ∑ j, Spec.dist α (Y i) (Y j)) / n ^ 2) / T)) := by
  have hm := Spec.dcovStat_perm_average hn hα.ne' X Y
  have hcard : (Fintype.card (Equiv.Perm (Fin n)) : ℝ) = n.factorial := by
    rw [Fintype.card_perm, Fintype.card_fin]
  have hD : ∀ {p : ℕ} (X : Fin n → Fin p → ℝ),
      Spec.crossMean α X X = (∑ i, ∑ j, Spec.dist α (X i) (X j)) / n ^ 2 := by
    intro p X
    rw [Spec.crossMean, pow_two]
  rw [hD, hD, ← mul_assoc] at hm
  have ht : ∀ π : Equiv.Perm (Fin n), 0 ≤ Spec.dcovStat α (fun i => X (π i)) Y := fun π =>
    mul_nonneg (Nat.cast_nonneg _) (Spec.dcovSqr_nonneg _ _ hα hα2)
  obtain ⟨pv, hpv⟩ : ∃ pv : (Fin B → Equiv.Perm (Fin n)) → ℝ, pv = fun σ =>
      Spec.permPvalue (.fin (Spec.dcovStat α X Y)) (fun i => .fin (Spec.dcovStat α
        (fun k => X (permAt (Rng.replay σ) n 0 i k)) Y)) B := ⟨_, rfl⟩
  have hpv' : ∀ σ, ∃ f : ℕ → FP ℝ, (∀ i : Fin B, f i = .fin (Spec.dcovStat α (fun k => X (σ i k)) Y)) ∧
      pv σ = Spec.permPvalue (.fin (Spec.dcovStat α X Y)) f B := by
    intro σ
    refine ⟨fun i => .fin (Spec.dcovStat α (fun k => X (permAt (Rng.replay σ) n 0 i k)) Y), fun i => ?_, by rw [hpv]⟩
    dsimp only
    rw [permAt_replay]
  refine ⟨Spec.dcovStat α X Y, pv, fun σ => ?_, fun hT => ?_, fun hT => ?_⟩
  · rw [distanceCovarianceTest_ok hc hj B, hpv]
    exact ⟨_, rfl⟩
  · rw [← hcard]
    exact average_pvalue_le hpv' ht hT hm
  · rw [← hcard]
    convert not_smallest_le hpv' ht hT hm

end Dcov

/-! ### Energy test -/

section Energy

variable {sz : Fin k → ℕ} {W : (a : Fin k) → Fin (sz a) → Fin p → ℝ} {o : EnergyOpts} {A : Fin k → Arr}

/-- C98: the p-value of `energy_test` of `k` samples (V-statistics), averaged over all sequences of permutations, is at
most `(1 + B * D / T) / (B + 1)`, where `T` is the statistic and `D` is the number `k * (k - 1) / 2` of pairs of samples
times the mean distance of two different observations of the pooled sample. With a probability of at least
`1 - B * D / T` it is `1 / (B + 1)`. -/
theorem C98_energy_power (hc : EnergyTestCall A o W) (hs : o.stat.resolve env = .ok .v) (hj : nJobs ≠ some 0)
    (hα : 0 < o.exponent) (hα2 : o.exponent ≤ 2) :
    ∃ (T : ℝ) (pv : (Fin B → Equiv.Perm (Fin (∑ a, sz a))) → ℝ),
      (∀ σ, ∃ s, (energyTest env (Rng.replay σ) (List.ofFn A) B o (.gen 0) nJobs).out = .ok (⟨pv σ, .fin T⟩, s)) ∧
      (0 < T → (∑ σ, pv σ) / (∑ a, sz a).factorial ^ B
        ≤ (1 + B * ((k : ℝ) * (k - 1) / 2 * Spec.pairMean o.exponent (Spec.pooled W) / T)) / (B + 1)) ∧
      (0 < T → ((univ.filter fun σ => pv σ ≠ 1 / ((B : ℝ) + 1)).card : ℝ) / (∑ a, sz a).factorial ^ B
        ≤ B * ((k : ℝ) * (k - 1) / 2 * Spec.pairMean o.exponent (Spec.pooled W) / T)) := by
  have hm := Spec.energyTestVal_perm_average hα hc.two hc.pos W
  have hcard : (Fintype.card (Equiv.Perm (Fin (∑ a, sz a))) : ℝ) = (∑ a, sz a).factorial := by
    rw [Fintype.card_perm, Fintype.card_fin]
  have ht : ∀ π, 0 ≤ Spec.energyTestVal .v o.exponent (Spec.relabel W π) := fun π =>
    Spec.energyTestVal_nonneg hα.le hα2 hc.pos _
  have hv : ∀ W' : (a : Fin k) → Fin (sz a) → Fin p → ℝ, Spec.energyTestStat .v o.exponent W'
      = .fin (Spec.energyTestVal .v o.exponent W') := fun W' => Spec.energyTestStat_eq .v _ _ fun a => hc.pos a
  obtain ⟨pv, hpv⟩ : ∃ pv : (Fin B → Equiv.Perm (Fin (∑ a, sz a))) → ℝ, pv = fun σ =>
      Spec.permPvalue (.fin (Spec.energyTestVal .v o.exponent W)) (fun i => .fin (Spec.energyTestVal .v o.exponent
        (Spec.relabel W (permAt (Rng.replay σ) (∑ a, sz a) 0 i)))) B := ⟨_, rfl⟩
  have hpv' : ∀ σ, ∃ f : ℕ → FP ℝ,
      (∀ i : Fin B, f i = .fin (Spec.energyTestVal .v o.exponent (Spec.relabel W (σ i)))) ∧
      pv σ = Spec.permPvalue (.fin (Spec.energyTestVal .v o.exponent W)) f B := by
    intro σ
    refine ⟨fun i => .fin (Spec.energyTestVal .v o.exponent (Spec.relabel W (permAt (Rng.replay σ) (∑ a, sz a) 0 i))),
      fun i => ?_, by rw [hpv]⟩
    dsimp only
    rw [permAt_replay]
  refine ⟨Spec.energyTestVal .v o.exponent W, pv, fun σ => ?_, fun hT => ?_, fun hT => ?_⟩
  · rw [energyTest_ok hc hs hj B, hpv]
    simp only [hv]
    exact ⟨_, rfl⟩
  · rw [← hcard]
    exact average_pvalue_le hpv' ht hT hm
  · rw [← hcard]
    convert not_smallest_le hpv' ht hT hm

end Energy

/-- Two groups of two observations. -/
def groups : Fin 4 → Fin 1 → ℝ := ![![0], ![0], ![1], ![1]]

private theorem groups_dist (i j : Fin 4) :
    Spec.dist 1 (groups i) (groups j) = if (i : ℕ) / 2 = (j : ℕ) / 2 then 0 else 1 := by
  fin_cases i <;> fin_cases j <;> simp [Spec.dist, groups]

/-- The groups against themselves: the statistic is 1 and the average distance 1/2, so that the smallest p-value has a
probability of at least `1 - B / 3`. -/
example (B : ℕ) : ∃ (pv : (Fin B → Equiv.Perm (Fin 4)) → ℝ),
    (∀ σ, ∃ s, (distanceCovarianceTest stdEnv (Rng.replay σ) (npMat groups) (npMat groups) B 1 (.gen 0) none).out
      = .ok (⟨pv σ, .fin 1⟩, s)) ∧
    ((univ.filter fun σ => pv σ ≠ 1 / ((B : ℝ) + 1)).card : ℝ) / (4 : ℕ).factorial ^ B ≤ B * (1 / 3) := by
  have hc := dcovTestCall_mat (by norm_num) groups groups zero_le_one
  obtain ⟨T, pv, h1, -, h3⟩ := C98_dcov_power (env := stdEnv) (nJobs := none) (B := B) hc (by simp) (by norm_num)
    one_pos one_le_two
  have hT : T = 1 := by
    obtain ⟨s, hs⟩ := h1 fun _ => 1
    rw [distanceCovarianceTest_ok hc (by simp) B] at hs
    have e : T = Spec.dcovStat 1 groups groups := by
      have := congrArg (fun r : HypothesisTest × ℕ => r.1.statistic) (Except.ok.inj hs)
      exact (FP.fin.inj this).symm
    rw [e, Spec.dcovStat, Spec.dcovSqr]
    simp only [Spec.centre, Spec.distMat, groups_dist, Fin.sum_univ_four]
    norm_num
  subst hT
  refine ⟨pv, h1, (h3 one_pos).trans (le_of_eq ?_)⟩
  simp only [groups_dist, Fin.sum_univ_four]
  norm_num

example (B : ℕ) := C98_energy_power (env := stdEnv) (nJobs := none) (B := B)
  (energyTestCall_mat (by norm_num) (sz := ![2, 3, 1]) (by decide)
    (fun a (i : Fin (![2, 3, 1] a)) (j : Fin 2) => (a : ℝ) * i - j) zero_le_one (.enum .v)) rfl (by simp) one_pos one_le_two

end Dcor.Props

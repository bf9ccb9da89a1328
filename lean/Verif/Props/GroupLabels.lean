/-
Property C131: the energy test is the distance covariance test of the pooled sample and the labels of the samples.
-/
import Verif.Props.Within

namespace Dcor.Props

open Finset

variable {env : Env} {nJobs nJobs' : Option ℤ} {p q k : ℕ} {sz : Fin k → ℕ} {α : ℝ}

/-- Labels of the observations: two observations have the distance zero if they belong to the same sample and `ℓ` otherwise. -/
def Labels (sz : Fin k → ℕ) (ℓ : ℝ) (L : Fin (∑ a, sz a) → Fin q → ℝ) : Prop :=
  ∀ a i b j, ∑ c, (L (finSigmaFinEquiv ⟨a, i⟩) c - L (finSigmaFinEquiv ⟨b, j⟩) c) ^ 2 = if a = b then 0 else ℓ ^ 2

private theorem sum_samples (f : Fin (∑ a, sz a) → ℝ) : ∑ i, f i = ∑ a, ∑ i, f (finSigmaFinEquiv ⟨a, i⟩) := by
  rw [← Equiv.sum_comp finSigmaFinEquiv, Fintype.sum_sigma]

private theorem dist_labels {ℓ : ℝ} {L : Fin (∑ a, sz a) → Fin q → ℝ} (hα : 0 < α) (hℓ : 0 < ℓ) (hL : Labels sz ℓ L) (a i b j) :
    Spec.dist α (L (finSigmaFinEquiv ⟨a, i⟩)) (L (finSigmaFinEquiv ⟨b, j⟩)) = ℓ ^ α - if a = b then ℓ ^ α else 0 := by
  unfold Spec.dist
  rw [hL]
  split_ifs
  · rw [Real.sqrt_zero, Real.zero_rpow hα.ne', sub_self]
  · rw [Real.sqrt_sq hℓ.le, sub_zero]

private theorem dcovSqr_sample_labels {ℓ : ℝ} {L : Fin (∑ a, sz a) → Fin q → ℝ} (hα : 0 < α) (hℓ : 0 < ℓ) (hL : Labels sz ℓ L)
    (hN : 0 < ∑ a, sz a) (X : (a : Fin k) → Fin (sz a) → Fin p → ℝ) {D : Fin k → Fin k → ℝ}
    (hD : ∀ a b, ∑ i, ∑ j, Spec.dist α (X a i) (X b j) = D a b) {N : ℝ} (hN' : (∑ a, (sz a : ℝ)) = N) :
    Spec.dcovSqr (Spec.distMat α (Spec.pooled X)) (Spec.distMat α L)
      = ℓ ^ α * (2 * (∑ a, sz a * ∑ b, D a b) / N ^ 3 - (∑ a, D a a) / N ^ 2 - (∑ a, ∑ b, D a b) * (∑ a, (sz a : ℝ) ^ 2) / N ^ 4) := by
  have hN'' : ((∑ a, sz a : ℕ) : ℝ) = N := by rw [← hN']; push_cast; rfl
  have N0 : N ≠ 0 := by rw [← hN'']; exact_mod_cast hN.ne'
  have row (a : Fin k) (i : Fin (sz a)) : ∑ j, Spec.distMat α (Spec.pooled X) (finSigmaFinEquiv ⟨a, i⟩) j
      = ∑ b, ∑ j, Spec.dist α (X a i) (X b j) := by
    rw [sum_samples]
    exact sum_congr rfl fun b _ => sum_congr rfl fun j _ => by unfold Spec.distMat; rw [Spec.pooled_apply, Spec.pooled_apply]
  have rowL (a : Fin k) (i : Fin (sz a)) : ∑ j, Spec.distMat α L (finSigmaFinEquiv ⟨a, i⟩) j = ℓ ^ α * (N - sz a) := by
    rw [sum_samples]
    unfold Spec.distMat
    simp only [dist_labels hα hℓ hL, sum_sub_distrib, sum_const, card_univ, Fintype.card_fin, nsmul_eq_mul, ← sum_mul, hN']
    simp
    ring
  have rows (a : Fin k) : ∑ i, ∑ b, ∑ j, Spec.dist α (X a i) (X b j) = ∑ b, D a b := by
    rw [sum_comm]
    exact sum_congr rfl fun b _ => hD a b
  have s1 : ∑ i, ∑ j, Spec.distMat α (Spec.pooled X) i j * Spec.distMat α L i j = ℓ ^ α * ((∑ a, ∑ b, D a b) - ∑ a, D a a) := by
    rw [sum_samples, ← sum_sub_distrib, mul_sum]
    refine sum_congr rfl fun a _ => ?_
    have e (i : Fin (sz a)) : ∑ j, Spec.distMat α (Spec.pooled X) (finSigmaFinEquiv ⟨a, i⟩) j
        * Spec.distMat α L (finSigmaFinEquiv ⟨a, i⟩) j
        = ℓ ^ α * ((∑ b, ∑ j, Spec.dist α (X a i) (X b j)) - ∑ j, Spec.dist α (X a i) (X a j)) := by
      rw [sum_samples]
      unfold Spec.distMat
      simp only [Spec.pooled_apply, dist_labels hα hℓ hL, mul_sub, sum_sub_distrib, ← sum_mul, mul_ite, mul_zero]
      rw [mul_comm]
      congr 1
      rw [sum_eq_single a (fun b _ hb => by simp [hb.symm]) (fun h => absurd (mem_univ a) h)]
      simp only [if_true]
      rw [← sum_mul, mul_comm]
    rw [sum_congr rfl fun i _ => e i, ← mul_sum, sum_sub_distrib, rows, hD]
  have s2 : ∑ i, (∑ j, Spec.distMat α (Spec.pooled X) i j) * (∑ j, Spec.distMat α L i j)
      = ℓ ^ α * (N * (∑ a, ∑ b, D a b) - ∑ a, sz a * ∑ b, D a b) := by
    rw [sum_samples, mul_sum univ _ N, ← sum_sub_distrib, mul_sum]
    refine sum_congr rfl fun a _ => ?_
    simp only [row, rowL, ← sum_mul, rows]
    ring
  have s3 : ∑ i, ∑ j, Spec.distMat α (Spec.pooled X) i j = ∑ a, ∑ b, D a b := by
    rw [sum_samples]
    exact sum_congr rfl fun a _ => by simp only [row, rows]
  have s4 : ∑ i, ∑ j, Spec.distMat α L i j = ℓ ^ α * (N ^ 2 - ∑ a, (sz a : ℝ) ^ 2) := by
    rw [sum_samples, sq, ← hN', sum_mul, ← sum_sub_distrib, mul_sum]
    refine sum_congr rfl fun a _ => ?_
    simp only [rowL, sum_const, card_univ, Fintype.card_fin, nsmul_eq_mul, hN']
    ring
  rw [Spec.dcovSqr_eq_terms _ _ (Spec.distMat_symm _ _) (Spec.distMat_symm _ _) hN, s1, s2, s3, s4, hN'']
  field_simp
  ring

private theorem sum_dist (hsz : ∀ a, 0 < sz a) (X : (a : Fin k) → Fin (sz a) → Fin p → ℝ) (a b : Fin k) :
    ∑ i, ∑ j, Spec.dist α (X a i) (X b j) = (sz a : ℝ) * sz b * Spec.crossMean α (X a) (X b) := by
  have ha : (sz a : ℝ) ≠ 0 := by exact_mod_cast (hsz a).ne'
  have hb : (sz b : ℝ) ≠ 0 := by exact_mod_cast (hsz b).ne'
  unfold Spec.crossMean
  field_simp

private theorem stat_equal {ℓ : ℝ} {L : Fin (∑ a, sz a) → Fin q → ℝ} (hα : 0 < α) (hℓ : 0 < ℓ) (hL : Labels sz ℓ L)
    (hk : 2 ≤ k) (hsz : ∀ a, 0 < sz a) (he : ∀ a b, sz a = sz b) (X : (a : Fin k) → Fin (sz a) → Fin p → ℝ) :
    Spec.dcovStat α (Spec.pooled X) L = 2 * ℓ ^ α / k ^ 2 * Spec.energyTestVal .v α X := by
  obtain ⟨n, hn⟩ : ∃ n, ∀ a, sz a = n := ⟨sz ⟨0, by omega⟩, fun a => he a _⟩
  have n0 : (n : ℝ) ≠ 0 := by
    have := hsz ⟨0, by omega⟩
    rw [hn] at this
    exact_mod_cast this.ne'
  have k0 : (k : ℝ) ≠ 0 := by exact_mod_cast (by omega : k ≠ 0)
  have hN : 0 < ∑ a, sz a := sum_pos (fun a _ => hsz a) ⟨⟨0, by omega⟩, mem_univ _⟩
  have hN' : (∑ a, (sz a : ℝ)) = k * n := by simp [hn]
  have hN'' : ((∑ a, sz a : ℕ) : ℝ) = k * n := by rw [← hN']; push_cast; rfl
  unfold Spec.dcovStat
  rw [dcovSqr_sample_labels hα hℓ hL hN X (sum_dist hsz X) hN', energyTestVal_dispersion hk hsz (.inr he), within_crossMean]
  unfold totalDispersion
  rw [total_crossMean hsz, hN'']
  simp only [hn, ← mul_sum, sum_const, card_univ, Fintype.card_fin, nsmul_eq_mul]
  field_simp
  ring

private theorem stat_two {sz : Fin 2 → ℕ} {ℓ : ℝ} {L : Fin (∑ a, sz a) → Fin q → ℝ} (hα : 0 < α) (hℓ : 0 < ℓ)
    (hL : Labels sz ℓ L) (hsz : ∀ a, 0 < sz a) (X : (a : Fin 2) → Fin (sz a) → Fin p → ℝ) :
    Spec.dcovStat α (Spec.pooled X) L
      = 2 * ℓ ^ α * (sz 0 * sz 1) / (sz 0 + sz 1) ^ 2 * Spec.energyTestVal .v α X := by
  have h0 : (0 : ℝ) < sz 0 := by exact_mod_cast hsz 0
  have h1 : (0 : ℝ) < sz 1 := by exact_mod_cast hsz 1
  have hN : 0 < ∑ a, sz a := sum_pos (fun a _ => hsz a) ⟨0, mem_univ _⟩
  have hN' : (∑ a, (sz a : ℝ)) = sz 0 + sz 1 := Fin.sum_univ_two _
  have hN'' : ((∑ a, sz a : ℕ) : ℝ) = sz 0 + sz 1 := by rw [← hN']; push_cast; rfl
  have hs : (sz 0 + sz 1 : ℝ) ≠ 0 := by positivity
  unfold Spec.dcovStat
  rw [dcovSqr_sample_labels hα hℓ hL hN X (sum_dist hsz X) hN', energyTestVal_dispersion le_rfl hsz (.inl rfl), within_crossMean]
  unfold totalDispersion
  rw [total_crossMean hsz, hN'']
  simp only [Fin.sum_univ_two, Spec.crossMean_comm α (X 1) (X 0)]
  push_cast
  field_simp
  ring

variable {S : Type} {rng : Rng S} {rs : RandomLike S} {A : Fin k → Arr} {o : EnergyOpts} {X : (a : Fin k) → Fin (sz a) → Fin p → ℝ} {x l : Arr}

private theorem same_test {c : ℝ} {L : Fin (∑ a, sz a) → Fin q → ℝ} (hc : EnergyTestCall A o X) (hs : o.stat.resolve env = .ok .v)
    (hd : DcovTestCall x l o.exponent (Spec.pooled X) L) (hj : nJobs ≠ some 0) (hj' : nJobs' ≠ some 0) (h0 : 0 < c)
    (h : ∀ Z : (a : Fin k) → Fin (sz a) → Fin p → ℝ, Spec.dcovStat o.exponent (Spec.pooled Z) L = c * Spec.energyTestVal .v o.exponent Z)
    (B : ℕ) : ∃ pv T s, (energyTest env rng (List.ofFn A) B o rs nJobs).out = .ok (⟨pv, .fin T⟩, s) ∧
      (distanceCovarianceTest env rng x l B o.exponent rs nJobs').out = .ok (⟨pv, .fin (c * T)⟩, s) := by
  have hv (Z : (a : Fin k) → Fin (sz a) → Fin p → ℝ) : Spec.energyTestStat .v o.exponent Z
      = .fin (Spec.energyTestVal .v o.exponent Z) := Spec.energyTestStat_eq .v _ _ fun a => hc.pos a
  rw [energyTest_ok hc hs hj B, distanceCovarianceTest_ok hd hj' B]
  simp only [hv]
  refine ⟨_, Spec.energyTestVal .v o.exponent X, _, rfl, ?_⟩
  have hr (σ : Equiv.Perm (Fin (∑ a, sz a))) : (fun i => Spec.pooled X (σ i)) = Spec.pooled (Spec.relabel X σ) :=
    (Spec.pooled_relabel σ).symm
  simp only [hr, h]
  congr 3
  refine Spec.permPvalue_congr fun i _ => ?_
  show c * _ < c * _ ↔ _ < _
  exact mul_lt_mul_iff_right₀ h0

/-- C131: the energy test of two samples is the distance covariance test of the pooled sample and the labels of the samples. The
two functions consume the same random numbers and return the same p-value, and their statistics differ by a known factor. -/
theorem C131_two_samples {sz : Fin 2 → ℕ} {X : (a : Fin 2) → Fin (sz a) → Fin p → ℝ} {A : Fin 2 → Arr} {ℓ : ℝ}
    {L : Fin (∑ a, sz a) → Fin q → ℝ} (hc : EnergyTestCall A o X) (hs : o.stat.resolve env = .ok .v)
    (hd : DcovTestCall x l o.exponent (Spec.pooled X) L) (hj : nJobs ≠ some 0) (hj' : nJobs' ≠ some 0) (hα : 0 < o.exponent)
    (hℓ : 0 < ℓ) (hL : Labels sz ℓ L) (B : ℕ) :
    ∃ pv T s, (energyTest env rng (List.ofFn A) B o rs nJobs).out = .ok (⟨pv, .fin T⟩, s) ∧
      (distanceCovarianceTest env rng x l B o.exponent rs nJobs').out
        = .ok (⟨pv, .fin (2 * ℓ ^ o.exponent * (sz 0 * sz 1) / (sz 0 + sz 1) ^ 2 * T)⟩, s) := by
  have h0 : (0 : ℝ) < sz 0 := by exact_mod_cast hc.pos 0
  have h1 : (0 : ℝ) < sz 1 := by exact_mod_cast hc.pos 1
  have := Real.rpow_pos_of_pos hℓ o.exponent
  exact same_test hc hs hd hj hj' (by positivity) (stat_two hα hℓ hL hc.pos) B

/-- C131: the same for more samples of the same size, with labels of the same distance from each other. -/
theorem C131_equal_sizes {ℓ : ℝ} {L : Fin (∑ a, sz a) → Fin q → ℝ} (hc : EnergyTestCall A o X) (hs : o.stat.resolve env = .ok .v)
    (hd : DcovTestCall x l o.exponent (Spec.pooled X) L) (hj : nJobs ≠ some 0) (hj' : nJobs' ≠ some 0) (hα : 0 < o.exponent)
    (hℓ : 0 < ℓ) (hL : Labels sz ℓ L) (he : ∀ a b, sz a = sz b) (B : ℕ) :
    ∃ pv T s, (energyTest env rng (List.ofFn A) B o rs nJobs).out = .ok (⟨pv, .fin T⟩, s) ∧
      (distanceCovarianceTest env rng x l B o.exponent rs nJobs').out
        = .ok (⟨pv, .fin (2 * ℓ ^ o.exponent / k ^ 2 * T)⟩, s) := by
  have : (0 : ℝ) < k := by
    have := hc.two
    exact_mod_cast (by omega : 0 < k)
  have := Real.rpow_pos_of_pos hℓ o.exponent
  exact same_test hc hs hd hj hj' (by positivity) (stat_equal hα hℓ hL hc.two hc.pos he) B

/-- The indicator vectors of the samples. -/
def indicators (sz : Fin k → ℕ) (i : Fin (∑ a, sz a)) (c : Fin k) : ℝ := if (finSigmaFinEquiv.symm i).1 = c then 1 else 0

/-- Indicator vectors are labels of distance `√2`. -/
theorem labels_indicators : Labels sz (Real.sqrt 2) (indicators sz) := by
  intro a i b j
  unfold indicators
  simp only [Equiv.symm_apply_apply]
  split_ifs with h
  · subst h
    simp
  · rw [Real.sq_sqrt (by norm_num)]
    have (c : Fin k) : (((if a = c then 1 else 0) - if b = c then 1 else 0 : ℝ)) ^ 2
        = (if a = c then 1 else 0) + if b = c then 1 else 0 := by
      split_ifs with h1 h2
      · exact absurd (h1.trans h2.symm) h
      all_goals norm_num
    simp only [this, sum_add_distrib]
    simp
    norm_num

/-- The numbers zero and one are labels of distance one of two samples. -/
theorem labels_zero_one {sz : Fin 2 → ℕ} : Labels sz 1 fun i (_ : Fin 1) => ((finSigmaFinEquiv.symm i).1 : ℝ) := by
  intro a i b j
  simp only [Equiv.symm_apply_apply]
  fin_cases a <;> fin_cases b <;> simp

private theorem stat_unequal (X : (a : Fin 3) → Fin (![1, 1, 2] a) → Fin 1 → ℝ) {a b c d : ℝ} (h0 : X 0 (0 : Fin 1) = ![a])
    (h1 : X 1 (0 : Fin 1) = ![b]) (h2 : X 2 (0 : Fin 2) = ![c]) (h3 : X 2 (1 : Fin 2) = ![d]) :
    Spec.dcovStat 1 (Spec.pooled X) (indicators ![1, 1, 2])
      = Real.sqrt 2 * ((|a - b| + 3 * (|a - c| + |a - d| + |b - c| + |b - d| - |c - d|)) / 16) := by
  unfold Spec.dcovStat
  rw [dcovSqr_sample_labels (α := 1) one_pos (Real.sqrt_pos.2 two_pos) labels_indicators (by decide) X (fun _ _ => rfl)
    (N := 4) (by simp [Fin.sum_univ_three]; norm_num), Real.rpow_one,
    show ((∑ a, ![1, 1, 2] a : ℕ) : ℝ) = 4 by simp [Fin.sum_univ_three]]
  simp only [Fin.sum_univ_three, sum_unequal_first, sum_unequal_second, sum_unequal_third, h0, h1, h2, h3]
  simp only [dist_points, abs_sub_comm b a, abs_sub_comm c a, abs_sub_comm d a, abs_sub_comm c b, abs_sub_comm d b, abs_sub_comm d c]
  simp
  ring

/-- C131: for more than two samples of different sizes the two tests are different. For the samples `[2]`, `[10]` and `[0, 1]` and
the resample `[0]`, `[10]` and `[2, 1]`, `energy_test` returns the p-value one and `distance_covariance_test` of the pooled sample
and the indicator vectors the p-value one half. -/
theorem C131_unequal_sizes :
    (∃ T s, (energyTest stdEnv (Rng.replay fun _ : Fin 1 => exchanged) (List.ofFn fun a => npMat (unequal a)) 1 ⟨1, none, .enum .v⟩
      (.gen 0) none).out = .ok (⟨1, .fin T⟩, s)) ∧
    ∃ T s, (distanceCovarianceTest stdEnv (Rng.replay fun _ : Fin 1 => exchanged) (npMat (Spec.pooled unequal))
      (npMat (indicators ![1, 1, 2])) 1 1 (.gen 0) none).out = .ok (⟨1 / 2, .fin T⟩, s) := by
  refine ⟨C128_unequal_sizes.2, ?_⟩
  have ⟨u0, u1, u2, u3⟩ := unequal_values
  have ⟨r0, r1, r2, r3⟩ := relabel_unequal_values
  have h := distanceCovarianceTest_ok (env := stdEnv) (rng := Rng.replay fun _ : Fin 1 => exchanged) (rs := .gen 0) (nJobs := none)
    (dcovTestCall_mat (by decide) (Spec.pooled unequal) (indicators ![1, 1, 2]) zero_le_one) (by simp) 1
  rw [Nat.cast_one] at h
  rw [h]
  dsimp only
  have hr (σ : Equiv.Perm (Fin (∑ a, ![1, 1, 2] a))) :
      (fun i => Spec.pooled unequal (σ i)) = Spec.pooled (Spec.relabel unequal σ) := (Spec.pooled_relabel σ).symm
  simp only [hr, show randomStateInit (Rng.replay fun _ : Fin 1 => exchanged) (.gen 0) = 0 from rfl]
  rw [permPvalue_replay_real (fun _ : Fin 1 => exchanged) _
    fun π => Spec.dcovStat 1 (Spec.pooled (Spec.relabel unequal π)) (indicators ![1, 1, 2])]
  have : ¬ Spec.dcovStat 1 (Spec.pooled unequal) (indicators ![1, 1, 2])
      < Spec.dcovStat 1 (Spec.pooled (Spec.relabel unequal exchanged)) (indicators ![1, 1, 2]) := by
    rw [stat_unequal _ u0 u1 u2 u3, stat_unequal _ r0 r1 r2 r3, not_lt]
    refine mul_le_mul_of_nonneg_left ?_ (Real.sqrt_nonneg 2)
    norm_num [abs_of_pos, abs_of_neg]
  simp only [this, filter_false, card_empty]
  norm_num

example := C131_two_samples (env := stdEnv) (rng := shiftRng) (rs := .gen 7) (nJobs := none) (nJobs' := some 2)
  (energyTestCall_mat (sz := ![2, 3]) le_rfl (by decide) (fun a i => ![(a : ℝ), (i.1 : ℝ)]) zero_le_one (.enum .v)) rfl
  (dcovTestCall_mat (by decide) _ _ zero_le_one) (by simp) (by simp) one_pos one_pos labels_zero_one 99
example := C131_equal_sizes (env := stdEnv) (rng := shiftRng) (rs := .gen 7) (nJobs := none) (nJobs' := some 2)
  (energyTestCall_mat (k := 3) (sz := fun _ => 2) (by norm_num) (by simp) (fun a i => ![(a : ℝ), (i : ℝ)]) zero_le_one (.enum .v))
  rfl (dcovTestCall_mat (by simp) _ _ zero_le_one) (by simp) (by simp) one_pos (by norm_num) labels_indicators (fun _ _ => rfl) 99

end Dcor.Props

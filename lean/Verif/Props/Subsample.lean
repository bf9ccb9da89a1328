/-
Property C129: random subsamples estimate the statistics of the whole sample without bias.
-/
import Verif.Props.Averages
import Mathlib.GroupTheory.GroupAction.MultipleTransitivity

namespace Dcor.Props

open Finset

variable {n m N M p q : ℕ} {env : Env} {x y : Arr} {o o' : Opts} {eo eo' : EnergyOpts}

/-- A function of finite sequences of indices that is the average of its values for the sequences without one member has the same
average for the first members of a random order as for the whole order. -/
private theorem chain {m₀ : ℕ} (F : (m : ℕ) → (Fin m → Fin N) → ℝ)
    (step : ∀ m, m₀ ≤ m → ∀ g : Fin (m + 1) → Fin N, ∑ k : Fin (m + 1), F m (fun i => g (k.succAbove i)) = (m + 1) * F (m + 1) g)
    {m : ℕ} (hm : m₀ ≤ m) (hN : m ≤ N) :
    ∑ σ : Equiv.Perm (Fin N), F m (fun i => σ (Fin.castLE hN i)) = ∑ σ : Equiv.Perm (Fin N), F N fun i => σ i := by
  obtain ⟨d, hd⟩ := Nat.exists_eq_add_of_le hN
  induction d generalizing m with
  | zero =>
    obtain rfl : N = m := by omega
    rfl
  | succ d ih =>
    rw [← ih (m := m + 1) (by omega) (by omega) (by omega)]
    have h (k : Fin (m + 1)) : ∑ σ : Equiv.Perm (Fin N), F m (fun i => σ (Fin.castLE hN i))
        = ∑ σ : Equiv.Perm (Fin N), F m fun i => σ (Fin.castLE (by omega : m + 1 ≤ N) (k.succAbove i)) := by
      obtain ⟨π, hπ⟩ := Equiv.Perm.exists_extending_pair (fun i : Fin m => Fin.castLE hN i)
        (fun i : Fin m => Fin.castLE (by omega : m + 1 ≤ N) (k.succAbove i)) (Fin.castLE_injective _)
        ((Fin.castLE_injective (by omega : m + 1 ≤ N)).comp Fin.succAbove_right_injective)
      rw [← Equiv.sum_comp (Equiv.mulRight π)]
      refine sum_congr rfl fun σ _ => congrArg (F m) (funext fun i => ?_)
      show σ (π (Fin.castLE hN i)) = _
      rw [hπ]
    have h0 : ((m : ℝ) + 1) ≠ 0 := by positivity
    refine mul_left_cancel₀ h0 ?_
    calc ((m : ℝ) + 1) * ∑ σ : Equiv.Perm (Fin N), F m (fun i => σ (Fin.castLE hN i))
        = ∑ k : Fin (m + 1), ∑ σ : Equiv.Perm (Fin N), F m fun i => σ (Fin.castLE (by omega : m + 1 ≤ N) (k.succAbove i)) := by
          rw [← sum_congr rfl fun k _ => h k, sum_const, card_univ, Fintype.card_fin, nsmul_eq_mul]
          push_cast
          rfl
      _ = ∑ σ : Equiv.Perm (Fin N), ((m : ℝ) + 1) * F (m + 1) fun i => σ (Fin.castLE (by omega : m + 1 ≤ N) i) := by
          rw [sum_comm]
          exact sum_congr rfl fun σ _ => step m hm fun i => σ (Fin.castLE (by omega : m + 1 ≤ N) i)
      _ = _ := by rw [← mul_sum]

/-- C129: the average of `u_distance_covariance_sqr` over all random subsamples of `m` of the `N` pairs of observations (the first
`m` of a random order) is its value for the whole sample. -/
theorem C129_u_covariance {X : Fin N → Fin p → ℝ} {Y : Fin N → Fin q → ℝ} {xs ys : Equiv.Perm (Fin N) → Arr}
    (h : Supported env x y o X Y) (hN : m ≤ N)
    (h' : ∀ σ, Supported env (xs σ) (ys σ) o' (fun i : Fin m => X (σ (Fin.castLE hN i))) fun i => Y (σ (Fin.castLE hN i)))
    (heq : o'.exponent = o.exponent) (hm : 3 < m) (he : o.exponent ≠ 0) :
    ∃ (u : ℝ) (v : Equiv.Perm (Fin N) → ℝ), (uDistanceCovarianceSqr env x y o).out = .ok (.fin u) ∧
      (∀ σ, (uDistanceCovarianceSqr env (xs σ) (ys σ) o').out = .ok (.fin (v σ))) ∧
      (∑ σ, v σ) / N.factorial = u := by
  refine ⟨_, _, uDistanceCovarianceSqr_ok h (by omega) he,
    fun σ => uDistanceCovarianceSqr_ok (h' σ) hm (by rw [heq]; exact he), ?_⟩
  have hc := chain (m₀ := 4) (fun m g => Spec.uDcovSqr (Spec.distMat o.exponent fun i : Fin m => X (g i))
    (Spec.distMat o.exponent fun i => Y (g i))) (fun m hm g => Spec.uDcovSqr_leave_one_out (by omega)
      (Spec.distMat o.exponent fun i => X (g i)) (Spec.distMat o.exponent fun i => Y (g i)) (Spec.distMat_symm _ _)
      (Spec.distMat_symm _ _) (Spec.distMat_diag he _) (Spec.distMat_diag he _)) (by omega) hN
  rw [heq, div_eq_iff (by positivity)]
  refine hc.trans ?_
  have e (σ : Equiv.Perm (Fin N)) : Spec.uDcovSqr (Spec.distMat o.exponent fun i => X (σ i))
      (Spec.distMat o.exponent fun i => Y (σ i)) = Spec.uDcovSqr (Spec.distMat o.exponent X) (Spec.distMat o.exponent Y) :=
    Spec.uDcovSqr_reorder σ (Spec.distMat o.exponent X) (Spec.distMat o.exponent Y)
  rw [sum_congr rfl fun σ _ => e σ, sum_const, card_univ, Fintype.card_perm, Fintype.card_fin, nsmul_eq_mul, mul_comm]

/-- Averages of a function of one random index. -/
private theorem sum_perm_index (f : Fin N → ℝ) (i : Fin N) : N * ∑ σ : Equiv.Perm (Fin N), f (σ i) = N.factorial * ∑ j, f j := by
  have h (j : Fin N) : ∑ σ : Equiv.Perm (Fin N), f (σ j) = ∑ σ : Equiv.Perm (Fin N), f (σ i) := by
    rw [← Equiv.sum_comp (Equiv.mulRight (Equiv.swap i j)) fun σ : Equiv.Perm (Fin N) => f (σ j)]
    refine sum_congr rfl fun σ _ => congrArg f ?_
    show σ (Equiv.swap i j j) = _
    rw [Equiv.swap_apply_right]
  have h1 : ∑ j, ∑ σ : Equiv.Perm (Fin N), f (σ j) = N * ∑ σ : Equiv.Perm (Fin N), f (σ i) := by
    rw [sum_congr rfl fun j _ => h j, sum_const, card_univ, Fintype.card_fin, nsmul_eq_mul]
  rw [← h1, sum_comm, sum_congr rfl fun σ _ => Equiv.sum_comp σ f, sum_const, card_univ, Fintype.card_perm, Fintype.card_fin,
    nsmul_eq_mul]

private theorem cross_average (α : ℝ) (X : Fin N → Fin p → ℝ) (Y : Fin M → Fin p → ℝ) (hn : 0 < n) (hN : n ≤ N) (hm : 0 < m)
    (hM : m ≤ M) :
    ∑ σ : Equiv.Perm (Fin N), ∑ τ : Equiv.Perm (Fin M), Spec.crossMean α (fun i : Fin n => X (σ (Fin.castLE hN i)))
      (fun i : Fin m => Y (τ (Fin.castLE hM i))) = N.factorial * M.factorial * Spec.crossMean α X Y := by
  have n0 : (n : ℝ) ≠ 0 := by positivity
  have m0 : (m : ℝ) ≠ 0 := by positivity
  have N0 : (N : ℝ) ≠ 0 := by
    have : 0 < N := by omega
    positivity
  have M0 : (M : ℝ) ≠ 0 := by
    have : 0 < M := by omega
    positivity
  have k (i : Fin n) (j : Fin m) : ∑ σ : Equiv.Perm (Fin N), ∑ τ : Equiv.Perm (Fin M),
      Spec.dist α (X (σ (Fin.castLE hN i))) (Y (τ (Fin.castLE hM j)))
      = N.factorial * M.factorial * (∑ i, ∑ j, Spec.dist α (X i) (Y j)) / (N * M) := by
    have e1 (σ : Equiv.Perm (Fin N)) : ∑ τ : Equiv.Perm (Fin M), Spec.dist α (X (σ (Fin.castLE hN i))) (Y (τ (Fin.castLE hM j)))
        = M.factorial * (∑ j, Spec.dist α (X (σ (Fin.castLE hN i))) (Y j)) / M := by
      rw [eq_div_iff M0, mul_comm]
      exact sum_perm_index (fun j => Spec.dist α (X (σ (Fin.castLE hN i))) (Y j)) _
    rw [sum_congr rfl fun σ _ => e1 σ, ← sum_div, ← mul_sum, div_eq_div_iff M0 (by positivity)]
    have e2 := sum_perm_index (fun i => ∑ j, Spec.dist α (X i) (Y j)) (Fin.castLE hN i)
    linear_combination (M.factorial * M : ℝ) * e2
  unfold Spec.crossMean
  simp only [← sum_div]
  rw [sum_congr rfl fun σ _ => sum_comm, sum_comm]
  rw [sum_congr rfl fun i _ => (sum_congr rfl fun σ _ => sum_comm).trans (sum_comm.trans (sum_congr rfl fun j _ => k i j))]
  simp only [sum_const, card_univ, Fintype.card_fin, nsmul_eq_mul]
  field_simp

private theorem pair_average (α : ℝ) (X : Fin N → Fin p → ℝ) (hn : 2 ≤ n) (hN : n ≤ N) :
    ∑ σ : Equiv.Perm (Fin N), Spec.pairMean α (fun i : Fin n => X (σ (Fin.castLE hN i))) = N.factorial * Spec.pairMean α X := by
  obtain ⟨E, hE⟩ := Spec.exists_off α X
  rw [Spec.sum_perm_pairMean hn α X (Fin.castLE_injective hN) hE, ← Spec.sum_off_eq α X (by omega) hE]
  field_simp

private theorem self_average {α : ℝ} (hα : 0 < α) (X : Fin N → Fin p → ℝ) (hn : 0 < n) (hN : n ≤ N) (h2 : 2 ≤ N) :
    ∑ σ : Equiv.Perm (Fin N), Spec.crossMean α (fun i : Fin n => X (σ (Fin.castLE hN i))) (fun i => X (σ (Fin.castLE hN i)))
      = N.factorial * (Spec.crossMean α X X - (1 / n - 1 / N) * Spec.pairMean α X) := by
  rw [Spec.crossMean_self h2 hα X]
  rcases Nat.lt_or_ge n 2 with h | h
  · obtain rfl : n = 1 := by omega
    simp [Spec.crossMean, Spec.dist_self hα.ne']
    ring_nf
    simp
  · rw [sum_congr rfl fun σ _ => Spec.crossMean_self h hα fun i => X (σ (Fin.castLE hN i)), sum_sub_distrib, ← sum_div,
      pair_average α X h hN]
    ring

/-- C129: the average of the energy distance (U-statistic) over all random subsamples of both samples is its value for the whole
samples. -/
theorem C129_energy_u {X : Fin N → Fin p → ℝ} {Y : Fin M → Fin p → ℝ} {xs : Equiv.Perm (Fin N) → Arr}
    {ys : Equiv.Perm (Fin M) → Arr} (h : EnergyCall x y eo X Y) (hN : n ≤ N) (hM : m ≤ M)
    (h' : ∀ σ τ, EnergyCall (xs σ) (ys τ) eo' (fun i : Fin n => X (σ (Fin.castLE hN i))) fun i : Fin m => Y (τ (Fin.castLE hM i)))
    (heq : eo'.exponent = eo.exponent) (hs : eo.stat.resolve env = .ok .u) (hs' : eo'.stat.resolve env = .ok .u)
    (hn : 2 ≤ n) (hm : 2 ≤ m) :
    ∃ (u : ℝ) (v : Equiv.Perm (Fin N) → Equiv.Perm (Fin M) → ℝ), (∃ k, (energyDistance env x y eo).out = .ok ⟨.fin u, k⟩) ∧
      (∀ σ τ, ∃ k, (energyDistance env (xs σ) (ys τ) eo').out = .ok ⟨.fin (v σ τ), k⟩) ∧
      (∑ σ, ∑ τ, v σ τ) / (N.factorial * M.factorial) = u := by
  refine ⟨_, fun σ τ => Spec.energyU eo.exponent (fun i : Fin n => X (σ (Fin.castLE hN i)))
    fun i : Fin m => Y (τ (Fin.castLE hM i)), ⟨_, congrArg PyM.out (energyDistance_u h hs (by omega) (by omega))⟩,
    fun σ τ => ⟨_, by rw [energyDistance_u (h' σ τ) hs' hn hm, heq]⟩, ?_⟩
  rw [div_eq_iff (by positivity)]
  unfold Spec.energyU
  simp only [sum_sub_distrib, ← mul_sum, sum_const, card_univ, Fintype.card_perm, Fintype.card_fin, nsmul_eq_mul]
  rw [cross_average _ X Y (by omega) hN (by omega) hM, pair_average _ X hn hN, pair_average _ Y hm hM]
  ring

/-- C129: the average of the energy distance (V-statistic) over all random subsamples of `n` and `m` observations is larger than its
value for the whole samples, by `1 / n - 1 / N` and `1 / m - 1 / M` times the mean distances of two observations of the samples. -/
theorem C129_energy_v {X : Fin N → Fin p → ℝ} {Y : Fin M → Fin p → ℝ} {xs : Equiv.Perm (Fin N) → Arr}
    {ys : Equiv.Perm (Fin M) → Arr} (h : EnergyCall x y eo X Y) (hN : n ≤ N) (hM : m ≤ M)
    (h' : ∀ σ τ, EnergyCall (xs σ) (ys τ) eo' (fun i : Fin n => X (σ (Fin.castLE hN i))) fun i : Fin m => Y (τ (Fin.castLE hM i)))
    (heq : eo'.exponent = eo.exponent) (hs : eo.stat.resolve env = .ok .v) (hs' : eo'.stat.resolve env = .ok .v)
    (hα : eo.exponent ≠ 0) (hn : 0 < n) (hm : 0 < m) (hN2 : 2 ≤ N) (hM2 : 2 ≤ M) :
    ∃ (u : ℝ) (v : Equiv.Perm (Fin N) → Equiv.Perm (Fin M) → ℝ), (∃ k, (energyDistance env x y eo).out = .ok ⟨.fin u, k⟩) ∧
      (∀ σ τ, ∃ k, (energyDistance env (xs σ) (ys τ) eo').out = .ok ⟨.fin (v σ τ), k⟩) ∧
      (∑ σ, ∑ τ, v σ τ) / (N.factorial * M.factorial)
        = u + (1 / n - 1 / N) * Spec.pairMean eo.exponent X + (1 / m - 1 / M) * Spec.pairMean eo.exponent Y := by
  have hα' : 0 < eo.exponent := lt_of_le_of_ne h.exponent_nonneg (Ne.symm hα)
  refine ⟨_, fun σ τ => Spec.energyV eo.exponent (fun i : Fin n => X (σ (Fin.castLE hN i)))
    fun i : Fin m => Y (τ (Fin.castLE hM i)), ⟨_, congrArg PyM.out (energyDistance_v h hs (by omega) (by omega))⟩,
    fun σ τ => ⟨_, by rw [energyDistance_v (h' σ τ) hs' hn hm, heq]⟩, ?_⟩
  rw [div_eq_iff (by positivity)]
  unfold Spec.energyV
  simp only [sum_sub_distrib, ← mul_sum, sum_const, card_univ, Fintype.card_perm, Fintype.card_fin, nsmul_eq_mul]
  rw [cross_average _ X Y (by omega) hN (by omega) hM, self_average hα' X hn hN hN2, self_average hα' Y hm hM hM2]
  ring

/-- Samples used in the examples. -/
private def subX : Fin 6 → Fin 2 → ℝ := ![![0, 1], ![2, 5], ![3, 3], ![1, 1], ![7, 2], ![4, 4]]
private def subY : Fin 5 → Fin 2 → ℝ := ![![0, 0], ![2, 1], ![3, 0], ![1, 6], ![5, 5]]

example := C129_u_covariance (m := 4) (supported_mat subX (fun i => ![subX i 0 - subX i 1]) 1 (by norm_num)) (by norm_num)
  (fun σ => supported_mat _ _ 1 (by norm_num)) rfl (by norm_num) one_ne_zero
example := C129_energy_u (env := stdEnv) (n := 2) (m := 3) (energyCall_mat subX subY (α := 1) (by norm_num) (.enum .u))
  (by norm_num) (by norm_num) (fun σ τ => energyCall_mat _ _ (α := 1) (by norm_num) (.enum .u)) rfl rfl rfl (by norm_num)
  (by norm_num)
example := C129_energy_v (env := stdEnv) (n := 1) (m := 3) (energyCall_mat subX subY (α := 1) (by norm_num) (.enum .v))
  (by norm_num) (by norm_num) (fun σ τ => energyCall_mat _ _ (α := 1) (by norm_num) (.enum .v)) rfl rfl rfl one_ne_zero
  (by norm_num) (by norm_num) (by norm_num) (by norm_num)

end Dcor.Props

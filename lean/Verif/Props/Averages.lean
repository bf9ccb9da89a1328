/-
Properties C63, C64: averages of the statistics over all relabellings and over all samples.
-/
import Verif.Proofs.Average
import Verif.Proofs.Unbiased
import Verif.Props.Energy

namespace Dcor.Props

open Finset

variable {n m N M p q : ℕ} {env : Env} {x y px py : Arr} {o o' : Opts} {eo eo' : EnergyOpts}

/-! ### C63 -/

/-- C63: the average of `u_distance_covariance_sqr` over all relabellings of the first sample is zero. -/
theorem C63_u_covariance_relabelled {X : Fin n → Fin p → ℝ} {Y : Fin n → Fin q → ℝ}
    {xs : Equiv.Perm (Fin n) → Arr} (h : ∀ π, Supported env (xs π) y o (fun i => X (π i)) Y) (hn : 3 < n)
    (he : o.exponent ≠ 0) :
    ∃ v : Equiv.Perm (Fin n) → ℝ, (∀ π, (uDistanceCovarianceSqr env (xs π) y o).out = .ok (.fin (v π))) ∧
      (∑ π, v π) / n.factorial = 0 := by
  refine ⟨_, fun π => uDistanceCovarianceSqr_ok (h π) hn he, ?_⟩
  have := Spec.uDcovSqr_perm_average hn (Spec.distMat o.exponent X) (Spec.distMat o.exponent Y)
    (Spec.distMat_symm _ _) (Spec.distMat_symm _ _) (Spec.distMat_diag he X) (Spec.distMat_diag he Y)
  exact div_eq_zero_iff.2 (Or.inl this)

/-- C63: the average of `distance_covariance_sqr` over all relabellings of the first sample is the product of
the mean distances divided by `n - 1`: the bias that `u_distance_covariance_sqr` removes. -/
theorem C63_covariance_relabelled {X : Fin n → Fin p → ℝ} {Y : Fin n → Fin q → ℝ}
    {xs : Equiv.Perm (Fin n) → Arr} (h : ∀ π, Supported env (xs π) y o (fun i => X (π i)) Y) (hn : 2 ≤ n)
    (he : o.exponent ≠ 0) :
    ∃ v : Equiv.Perm (Fin n) → ℝ, (∀ π, (distanceCovarianceSqr env (xs π) y o).out = .ok (.fin (v π))) ∧
      (∑ π, v π) / n.factorial
        = Spec.crossMean o.exponent X X * Spec.crossMean o.exponent Y Y / (n - 1) := by
  refine ⟨_, fun π => distanceCovarianceSqr_ok (h π) (by omega), ?_⟩
  have := Spec.dcovSqr_perm_average hn (Spec.distMat o.exponent X) (Spec.distMat o.exponent Y)
    (Spec.distMat_diag he X) (Spec.distMat_diag he Y)
  rw [pow_two] at this
  exact this

/-- C63: the average of the energy distance (U-statistic) over all ways to relabel the pooled sample is
zero. -/
theorem C63_energy_u_relabelled {Z : Fin (n + m) → Fin p → ℝ} {xs ys : Equiv.Perm (Fin (n + m)) → Arr}
    (h : ∀ π, EnergyCall (xs π) (ys π) eo (fun i : Fin n => Z (π (Fin.castAdd m i)))
      (fun j : Fin m => Z (π (Fin.natAdd n j)))) (hs : eo.stat = .enum .u) (hn : 2 ≤ n) (hm : 2 ≤ m) :
    ∃ v : Equiv.Perm (Fin (n + m)) → ℝ,
      (∀ π, ∃ k, (energyDistance env (xs π) (ys π) eo).out = .ok ⟨.fin (v π), k⟩) ∧
      (∑ π, v π) / (n + m).factorial = 0 := by
  refine ⟨fun π => Spec.energyU eo.exponent (fun i : Fin n => Z (π (Fin.castAdd m i)))
    (fun j : Fin m => Z (π (Fin.natAdd n j))), fun π => ⟨_, by
    rw [energyDistance_u (h π) (by rw [hs]; rfl) hn hm]⟩, ?_⟩
  exact div_eq_zero_iff.2 (Or.inl (Spec.energyU_perm_average hn hm eo.exponent Z))

/-- C63: the average of the energy distance (V-statistic) over all ways to relabel the pooled sample is
positive: `1 / n + 1 / m` times the mean distance of different observations. -/
theorem C63_energy_v_relabelled {Z : Fin (n + m) → Fin p → ℝ} {xs ys : Equiv.Perm (Fin (n + m)) → Arr}
    (h : ∀ π, EnergyCall (xs π) (ys π) eo (fun i : Fin n => Z (π (Fin.castAdd m i)))
      (fun j : Fin m => Z (π (Fin.natAdd n j)))) (hs : eo.stat = .enum .v) (hn : 0 < n) (hm : 0 < m)
    (he : eo.exponent ≠ 0) :
    ∃ v : Equiv.Perm (Fin (n + m)) → ℝ,
      (∀ π, ∃ k, (energyDistance env (xs π) (ys π) eo).out = .ok ⟨.fin (v π), k⟩) ∧
      (∑ π, v π) / (n + m).factorial = (1 / n + 1 / m) * Spec.pairMean eo.exponent Z := by
  have he' : 0 < eo.exponent := lt_of_le_of_ne (h 1).exponent_nonneg (Ne.symm he)
  refine ⟨fun π => Spec.energyV eo.exponent (fun i : Fin n => Z (π (Fin.castAdd m i)))
    (fun j : Fin m => Z (π (Fin.natAdd n j))), fun π => ⟨_, by
    rw [energyDistance_v (h π) (by rw [hs]; rfl) hn hm]⟩, ?_⟩
  exact Spec.energyV_perm_average hn hm he' Z

/-- Samples used in the examples. -/
private def avX : Fin 4 → Fin 2 → ℝ := ![![0, 1], ![2, 5], ![3, 3], ![1, 1]]
private def avY : Fin 4 → Fin 1 → ℝ := ![![0], ![2], ![3], ![1]]

example := C63_u_covariance_relabelled (fun π => supported_mat (fun i => avX (π i)) avY 1 (by norm_num))
  (by norm_num) one_ne_zero
example := C63_covariance_relabelled (fun π => supported_mat (fun i => avX (π i)) avY 1 (by norm_num))
  (by norm_num) one_ne_zero
example := C63_energy_u_relabelled (env := stdEnv) (n := 2) (m := 2) (Z := avX)
  (fun π => energyCall_mat _ _ (α := 1) (by norm_num) (.enum .u)) rfl le_rfl le_rfl
example := C63_energy_v_relabelled (env := stdEnv) (n := 1) (m := 3) (Z := avX)
  (fun π => energyCall_mat _ _ (α := 1) (by norm_num) (.enum .v)) rfl (by norm_num) (by norm_num) one_ne_zero

/-! ### C64 -/

/-- C64: the average of `u_distance_covariance_sqr` over the samples with one observation left out is its
value for the full sample: the jackknife finds no bias. -/
theorem C64_leave_one_out {X : Fin (n + 1) → Fin p → ℝ} {Y : Fin (n + 1) → Fin q → ℝ}
    {xs ys : Fin (n + 1) → Arr} (h : Supported env x y o X Y)
    (h' : ∀ i, Supported env (xs i) (ys i) o' (fun j => X (i.succAbove j)) (fun j => Y (i.succAbove j)))
    (heq : o'.exponent = o.exponent) (hn : 3 < n) (he : o.exponent ≠ 0) :
    ∃ (u : ℝ) (v : Fin (n + 1) → ℝ), (uDistanceCovarianceSqr env x y o).out = .ok (.fin u) ∧
      (∀ i, (uDistanceCovarianceSqr env (xs i) (ys i) o').out = .ok (.fin (v i))) ∧
      (∑ i, v i) / (n + 1) = u := by
  refine ⟨_, _, uDistanceCovarianceSqr_ok h (by omega) he,
    fun i => uDistanceCovarianceSqr_ok (h' i) hn (by rw [heq]; exact he), ?_⟩
  have := Spec.uDcovSqr_leave_one_out hn (Spec.distMat o.exponent X) (Spec.distMat o.exponent Y)
    (Spec.distMat_symm _ _) (Spec.distMat_symm _ _) (Spec.distMat_diag he X) (Spec.distMat_diag he Y)
  rw [heq, div_eq_iff (by positivity), mul_comm]
  exact this

/-- C64: for samples of `n` observations drawn with replacement from a population of `N` pairs,
`u_distance_covariance_sqr` is an unbiased estimator of the `distance_covariance_sqr` of the population. -/
theorem C64_u_covariance_unbiased {X : Fin N → Fin p → ℝ} {Y : Fin N → Fin q → ℝ}
    {xs ys : (Fin n → Fin N) → Arr} (h : Supported env px py o X Y)
    (h' : ∀ f, Supported env (xs f) (ys f) o' (fun i => X (f i)) (fun i => Y (f i)))
    (heq : o'.exponent = o.exponent) (hN : 0 < N) (hn : 3 < n) (he : o.exponent ≠ 0) :
    ∃ (u : ℝ) (v : (Fin n → Fin N) → ℝ), (distanceCovarianceSqr env px py o).out = .ok (.fin u) ∧
      (∀ f, (uDistanceCovarianceSqr env (xs f) (ys f) o').out = .ok (.fin (v f))) ∧
      (∑ f, v f) / N ^ n = u := by
  refine ⟨_, _, distanceCovarianceSqr_ok h hN,
    fun f => uDistanceCovarianceSqr_ok (h' f) hn (by rw [heq]; exact he), ?_⟩
  have := Spec.uDcovSqr_sum_samples (Spec.distMat o.exponent X) (Spec.distMat o.exponent Y)
    (Spec.distMat_symm _ _) (Spec.distMat_symm _ _) (Spec.distMat_diag he X) (Spec.distMat_diag he Y) hN
    (n := n) hn
  rw [heq, div_eq_iff (by positivity), mul_comm]
  exact this

/-- C64: for samples of `n` and `m` observations drawn with replacement from two populations, the
U-statistic is an unbiased estimator of the energy distance (V-statistic) of the populations. -/
theorem C64_energy_unbiased {X : Fin N → Fin p → ℝ} {Y : Fin M → Fin p → ℝ}
    {xs : (Fin n → Fin N) → Arr} {ys : (Fin m → Fin M) → Arr} (h : EnergyCall px py eo X Y)
    (h' : ∀ f g, EnergyCall (xs f) (ys g) eo' (fun i => X (f i)) (fun i => Y (g i)))
    (hs : eo.stat = .enum .v) (hs' : eo'.stat = .enum .u)
    (heq : eo'.exponent = eo.exponent) (hN : 0 < N) (hM : 0 < M) (hn : 2 ≤ n) (hm : 2 ≤ m) :
    ∃ (u : ℝ) (v : (Fin n → Fin N) → (Fin m → Fin M) → ℝ),
      (∃ k, (energyDistance env px py eo).out = .ok ⟨.fin u, k⟩) ∧
      (∀ f g, ∃ k, (energyDistance env (xs f) (ys g) eo').out = .ok ⟨.fin (v f g), k⟩) ∧
      (∑ f, ∑ g, v f g) / (N ^ n * M ^ m) = u := by
  refine ⟨Spec.energyV eo.exponent X Y,
    fun f g => Spec.energyU eo.exponent (fun i => X (f i)) (fun i => Y (g i)),
    ⟨_, by rw [energyDistance_v h (by rw [hs]; rfl) hN hM]⟩,
    fun f g => ⟨_, by rw [energyDistance_u (h' f g) (by rw [hs']; rfl) hn hm, heq]⟩, ?_⟩
  rw [Spec.energyU_sum_samples hN hM hn hm]
  field_simp

example := C64_leave_one_out (env := stdEnv) (n := 4)
  (supported_mat ![![0, 1], ![2, 5], ![3, 3], ![7, 2], ![(1 : ℝ), 1]] ![![0], ![2], ![3], ![5], ![(1 : ℝ)]]
    1 (by norm_num))
  (fun i => supported_mat _ _ 1 (by norm_num)) rfl (by norm_num) one_ne_zero
example := C64_u_covariance_unbiased (env := stdEnv) (n := 5) (supported_mat avX avY 1 (by norm_num))
  (fun f => supported_mat (fun i => avX (f i)) (fun i => avY (f i)) 1 (by norm_num)) rfl (by norm_num)
  (by norm_num) one_ne_zero
example := C64_energy_unbiased (env := stdEnv) (n := 3) (m := 2)
  (energyCall_mat ![![0, 1], ![2, 5], ![(1 : ℝ), 1]] ![![3, 1], ![(1 : ℝ), 1]] (α := 1) (by norm_num)
    (.enum .v))
  (fun f g => energyCall_mat _ _ (α := 1) (by norm_num) (.enum .u)) rfl rfl rfl (by norm_num) (by norm_num)
  (by norm_num) (by norm_num)

end Dcor.Props

/-
Properties C61, C62: special cases in which the statistics reduce to classical ones.
-/
import Verif.Proofs.ClosedForms
import Verif.Props.Energy

namespace Dcor.Props

open Finset

variable {n m p q : ℕ} {env : Env} {x y z l : Arr} {o : Opts} {eo : EnergyOpts} {X : Fin n → Fin p → ℝ}
  {Y : Fin n → Fin q → ℝ}

/-! ### C61 -/

/-- C61: with exponent two the squared distance covariance is four times the squared norm of the matrix of
covariances. -/
theorem C61_exponent_two_covariance (h : Supported env x y o X Y) (hn : 0 < n) (he : o.exponent = 2) :
    (distanceCovarianceSqr env x y o).out
      = .ok (.fin (4 * ∑ c, ∑ d, Spec.cov (fun i => X i c) (fun i => Y i d) ^ 2)) := by
  rw [distanceCovarianceSqr_ok h hn, he, Spec.dcovSqr_two]

/-- C61: with exponent two the distance correlation of scalar samples is the absolute value of Pearson's
correlation. -/
theorem C61_exponent_two_correlation {X Y : Fin n → Fin 1 → ℝ} (h : Supported env x y o X Y) (hn : 0 < n)
    (he : o.exponent = 2) :
    (distanceCorrelation env x y o).out
      = .ok (.fin |Spec.pearson (fun i => X i 0) (fun i => Y i 0)|) := by
  have e : ∀ Z : Fin n → Fin 1 → ℝ, Spec.distMat 2 Z = fun i j => (Z i 0 - Z j 0) ^ 2 := by
    intro Z
    funext i j
    rw [Spec.distMat, Spec.dist_two, Fin.sum_univ_one]
  rw [distanceCorrelation_ok h hn, he, e, e, Spec.dcorSqr_sq, Real.sqrt_sq_eq_abs]

/-- C61: with exponent two the energy distance is twice the squared distance of the means. -/
theorem C61_exponent_two_energy {Y : Fin m → Fin p → ℝ} (h : EnergyCall x y eo X Y)
    (hs : eo.stat = .enum .v) (hn : 0 < n) (hm : 0 < m) (he : eo.exponent = 2) :
    ∃ k, (energyDistance env x y eo).out
      = .ok ⟨.fin (2 * ∑ c, (Spec.avg (fun i => X i c) - Spec.avg (fun i => Y i c)) ^ 2), k⟩ := by
  rw [energyDistance_v h (by rw [hs]; rfl) hn hm, he, Spec.energyV_two hn hm]
  exact ⟨_, rfl⟩

/-- C61: so with exponent two dependent samples can have correlation zero: here `y = x ^ 2`. -/
theorem C61_exponent_two_misses_dependence :
    (distanceCorrelation stdEnv (npMat ![![-1], ![0], ![(1 : ℝ)]]) (npMat ![![1], ![0], ![(1 : ℝ)]])
      ⟨2, .enum .naive, .auto⟩).out = .ok (.fin 0) := by
  rw [C61_exponent_two_correlation (supported_mat _ _ 2 (by norm_num)) (by norm_num) rfl]
  have : Spec.cov (fun i : Fin 3 => (![![-1], ![0], ![(1 : ℝ)]] : Fin 3 → Fin 1 → ℝ) i 0)
      (fun i => (![![1], ![0], ![(1 : ℝ)]] : Fin 3 → Fin 1 → ℝ) i 0) = 0 := by
    simp [Spec.cov, Spec.avg, Fin.sum_univ_three]
  rw [Spec.pearson, this, zero_div, abs_zero]

example := C61_exponent_two_covariance (supported_mat ![![0, 1], ![2, 5], ![(3 : ℝ), 3]]
  ![![0], ![2], ![(1 : ℝ)]] 2 (by norm_num)) (by norm_num) rfl
example := C61_exponent_two_correlation (supported_mat ![![0], ![2], ![(3 : ℝ)]]
  ![![0], ![2], ![(1 : ℝ)]] 2 (by norm_num)) (by norm_num) rfl
example := C61_exponent_two_energy (env := stdEnv) (energyCall_mat ![![0, 1], ![2, 5], ![(1 : ℝ), 1]]
  ![![3, 1], ![(1 : ℝ), 1]] (α := 2) (by norm_num) (.enum .v)) rfl (by norm_num) (by norm_num) rfl

/-! ### C62 -/

/-- C62: if both samples have only two values, the distance correlation is the absolute value of Pearson's
correlation (the phi coefficient), whatever the exponent. -/
theorem C62_two_valued_samples {X Y : Fin n → Fin 1 → ℝ} (h : Supported env x y o X Y) (hn : 0 < n)
    (he : o.exponent ≠ 0) {a b c d : ℝ} (hab : a ≠ b) (hcd : c ≠ d) (hX : ∀ i, X i 0 = a ∨ X i 0 = b)
    (hY : ∀ i, Y i 0 = c ∨ Y i 0 = d) :
    (distanceCorrelation env x y o).out
      = .ok (.fin |Spec.pearson (fun i => X i 0) (fun i => Y i 0)|) := by
  have e : ∀ Z : Fin n → Fin 1 → ℝ, Z = fun i _ => Z i 0 := by
    intro Z
    funext i j
    rw [Subsingleton.elim j 0]
  rw [distanceCorrelation_ok h hn, e X, e Y, Spec.dcorSqr_binary hab hcd hX hY he, Real.sqrt_sq_eq_abs]

/-- C62: the squared distance covariance between a pooled sample and the labels of its two groups is a
multiple of the energy distance between the groups. -/
theorem C62_group_labels {Y : Fin m → Fin p → ℝ} {a b : ℝ} (hab : a ≠ b)
    (hp : Supported env z l o (Fin.append X Y)
      (fun i (_ : Fin 1) => Fin.append (fun _ : Fin n => a) (fun _ : Fin m => b) i))
    (h : EnergyCall x y eo X Y) (hs : eo.stat = .enum .v) (hn : 0 < n) (hm : 0 < m)
    (he : eo.exponent = o.exponent) (h0 : o.exponent ≠ 0) :
    ∃ e k, (energyDistance env x y eo).out = .ok ⟨.fin e, k⟩ ∧
      (distanceCovarianceSqr env z l o).out
        = .ok (.fin (2 * |a - b| ^ o.exponent * (n * m / (n + m) ^ 2) ^ 2 * e)) := by
  rw [energyDistance_v h (by rw [hs]; rfl) hn hm, he]
  refine ⟨_, _, rfl, ?_⟩
  rw [distanceCovarianceSqr_ok hp (by omega), Spec.dcovSqr_labels hn hm X Y hab h0]

example := C62_two_valued_samples (supported_vec (n := 4) (by norm_num) ![0, 5, 5, (0 : ℝ)]
  ![1, 2, 1, (1 : ℝ)] .avl .auto (Or.inl rfl)) (by norm_num) one_ne_zero (a := 0) (b := 5) (c := 1) (d := 2)
  (by norm_num) (by norm_num) (by intro i; fin_cases i <;> simp) (by intro i; fin_cases i <;> simp)
example := C62_group_labels (env := stdEnv) (a := 0) (b := (1 : ℝ)) (by norm_num)
  (supported_mat (Fin.append ![![0, 1], ![2, 5], ![(1 : ℝ), 1]] ![![3, 1], ![(1 : ℝ), 1]])
    (fun i (_ : Fin 1) => Fin.append (fun _ : Fin 3 => 0) (fun _ : Fin 2 => (1 : ℝ)) i) (3 / 2) (by norm_num))
  (energyCall_mat ![![0, 1], ![2, 5], ![(1 : ℝ), 1]] ![![3, 1], ![(1 : ℝ), 1]] (α := 3 / 2) (by norm_num)
    (.enum .v)) rfl (by norm_num) (by norm_num) rfl (by norm_num)

end Dcor.Props

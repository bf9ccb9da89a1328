/-
Properties C76-C78: the biased statistics only depend on the empirical distribution, small changes of
the data make small changes of the statistics, and the energy distance is the square of a metric.
-/
import Verif.Proofs.Empirical
import Verif.Proofs.Stability
import Verif.Props.Energy
import Verif.Props.Invariance

namespace Dcor.Props

open Finset

variable {n n' m m' k p q : ℕ} {env : Env} {x x' y y' z : Arr} {o o' : Opts} {e e' : EnergyOpts}

/-! ### C76 -/

open Classical in
/-- Every pair of values has the same relative frequency among the pairs `(X_i, Y_i)` and among the pairs
`(X'_i, Y'_i)`; the numbers of observations may differ. -/
def SamePairs (X : Fin n → Fin p → ℝ) (Y : Fin n → Fin q → ℝ) (X' : Fin n' → Fin p → ℝ)
    (Y' : Fin n' → Fin q → ℝ) : Prop :=
  ∀ u v, n' * (univ.filter fun i => X i = u ∧ Y i = v).card
    = n * (univ.filter fun i => X' i = u ∧ Y' i = v).card

theorem samePairs_emp (hn : 0 < n) (hn' : 0 < n') {X : Fin n → Fin p → ℝ} {Y : Fin n → Fin q → ℝ}
    {X' : Fin n' → Fin p → ℝ} {Y' : Fin n' → Fin q → ℝ} (h : SamePairs X Y X' Y')
    (f : (Fin p → ℝ) × (Fin q → ℝ) → ℝ) :
    Spec.emp (fun i => (X i, Y i)) f = Spec.emp (fun i => (X' i, Y' i)) f := by
  classical
  refine Spec.emp_congr _ _ (fun z => ?_) f
  have := h z.1 z.2
  have h1 : (n : ℝ) ≠ 0 := by positivity
  have h2 : (n' : ℝ) ≠ 0 := by positivity
  rw [div_eq_div_iff h1 h2]
  have e : ∀ {t : ℕ} (A : Fin t → Fin p → ℝ) (B : Fin t → Fin q → ℝ),
      (univ.filter fun i => (A i, B i) = z) = univ.filter fun i => A i = z.1 ∧ B i = z.2 :=
    fun A B => filter_congr fun i _ => Prod.ext_iff
  rw [e, e, mul_comm, mul_comm _ (n : ℝ)]
  exact_mod_cast (by convert this)

/-- C76: the biased statistics depend only on the relative frequencies of the observed pairs, not on their
number or order: repeating every observation `r` times changes nothing, whatever methods are used. -/
theorem C76_dcov_empirical {X : Fin n → Fin p → ℝ} {Y : Fin n → Fin q → ℝ} {X' : Fin n' → Fin p → ℝ}
    {Y' : Fin n' → Fin q → ℝ} (h : Supported env x y o X Y) (h' : Supported env x' y' o' X' Y')
    (he : o'.exponent = o.exponent) (hn : 0 < n) (hn' : 0 < n') (hs : SamePairs X Y X' Y') :
    (distanceCovarianceSqr env x' y' o').out = (distanceCovarianceSqr env x y o).out ∧
    (distanceCovariance env x' y' o').out = (distanceCovariance env x y o).out ∧
    (distanceCorrelationSqr env x' y' o').out = (distanceCorrelationSqr env x y o).out ∧
    (distanceCorrelation env x' y' o').out = (distanceCorrelation env x y o).out ∧
    (distanceStatsSqr env x' y' o').out = (distanceStatsSqr env x y o).out := by
  have key := Spec.dcovSqr_empirical (fun i => (X i, Y i)) (fun i => (X' i, Y' i)) (samePairs_emp hn hn' hs)
  have kxy := key (fun a b => Spec.dist o.exponent a.1 b.1) (fun a b => Spec.dist o.exponent a.2 b.2)
  have kxx := key (fun a b => Spec.dist o.exponent a.1 b.1) (fun a b => Spec.dist o.exponent a.1 b.1)
  have kyy := key (fun a b => Spec.dist o.exponent a.2 b.2) (fun a b => Spec.dist o.exponent a.2 b.2)
  have exy : Spec.dcovSqr (Spec.distMat o.exponent X') (Spec.distMat o.exponent Y')
    = Spec.dcovSqr (Spec.distMat o.exponent X) (Spec.distMat o.exponent Y) := kxy.symm
  have exx : Spec.dcovSqr (Spec.distMat o.exponent X') (Spec.distMat o.exponent X')
    = Spec.dcovSqr (Spec.distMat o.exponent X) (Spec.distMat o.exponent X) := kxx.symm
  have eyy : Spec.dcovSqr (Spec.distMat o.exponent Y') (Spec.distMat o.exponent Y')
    = Spec.dcovSqr (Spec.distMat o.exponent Y) (Spec.distMat o.exponent Y) := kyy.symm
  have er : Spec.dcorSqr (Spec.distMat o.exponent X') (Spec.distMat o.exponent Y')
    = Spec.dcorSqr (Spec.distMat o.exponent X) (Spec.distMat o.exponent Y) := by
    unfold Spec.dcorSqr
    rw [exy, exx, eyy]
  rw [distanceCovarianceSqr_ok h hn, distanceCovarianceSqr_ok h' hn', distanceCovariance_ok h hn,
    distanceCovariance_ok h' hn', distanceCorrelationSqr_ok h hn, distanceCorrelationSqr_ok h' hn',
    distanceCorrelation_ok h hn, distanceCorrelation_ok h' hn', distanceStatsSqr_ok h hn,
    distanceStatsSqr_ok h' hn', he, exy, exx, eyy, er]
  exact ⟨rfl, rfl, rfl, rfl, rfl⟩

/-- C76 for the V-statistic of the energy distance: it depends only on the two empirical distributions. -/
theorem C76_energy_empirical {X : Fin n → Fin p → ℝ} {X' : Fin n' → Fin p → ℝ} {Y : Fin m → Fin p → ℝ}
    {Y' : Fin m' → Fin p → ℝ} (h : EnergyCall x y e X Y) (h' : EnergyCall x' y' e' X' Y')
    (he : e'.exponent = e.exponent) (hs : e.stat = .enum .v) (hs' : e'.stat = .enum .v) (hn : 0 < n)
    (hn' : 0 < n') (hm : 0 < m) (hm' : 0 < m') (hX : SameEmpirical X X') (hY : SameEmpirical Y Y') :
    ∃ v k k', (energyDistance env x y e).out = .ok ⟨.fin v, k⟩ ∧
      (energyDistance env x' y' e').out = .ok ⟨.fin v, k'⟩ := by
  have key : ∀ {a b : ℕ} {A : Fin a → Fin p → ℝ} {B : Fin b → Fin p → ℝ}, 0 < a → 0 < b →
      SameEmpirical A B → ∀ f, Spec.emp A f = Spec.emp B f := by
    intro a b A B ha hb h f
    classical
    refine Spec.emp_congr _ _ (fun z => ?_) f
    have h1 : (a : ℝ) ≠ 0 := by positivity
    have h2 : (b : ℝ) ≠ 0 := by positivity
    rw [div_eq_div_iff h1 h2, mul_comm, mul_comm _ (a : ℝ)]
    exact_mod_cast (by convert h z)
  refine ⟨_, _, energyKind x', congrArg PyM.out (energyDistance_v h (by rw [hs]; rfl) hn hm), ?_⟩
  rw [energyDistance_v h' (by rw [hs']; rfl) hn' hm', he,
    Spec.energyV_empirical e.exponent X X' Y Y' (key hn hn' hX) (key hm hm' hY)]

/-- Every observation twice, in another order, with another method. -/
example := C76_dcov_empirical
  (supported_vec (n := 4) (by norm_num) ![0, 1, 1, (4 : ℝ)] ![2, 5, 5, (3 : ℝ)] .avl .auto (Or.inl rfl))
  (supported_vec (n := 8) (by norm_num) ![4, 1, 1, 0, 0, 1, 1, (4 : ℝ)] ![3, 5, 5, 2, 2, 5, 5, (3 : ℝ)]
    .mergesort .auto (Or.inl rfl)) rfl (by norm_num) (by norm_num) (by
      intro u v
      rw [card_filter, card_filter, Fin.sum_univ_four, Fin.sum_univ_eight]
      simp only [Matrix.cons_val]
      by_cases h1 : (fun _ => 0) = u ∧ (fun _ => 2) = v <;> by_cases h2 : (fun _ => 1) = u ∧ (fun _ => 5) = v <;>
        by_cases h3 : (fun _ => 4) = u ∧ (fun _ => 3) = v <;>
        simp only [h1, h2, h3, and_self, if_true, if_false] <;> norm_num)

theorem sameEmpirical_twice (X : Fin n → Fin p → ℝ) : SameEmpirical X (Fin.append X X) := by
  intro z
  classical
  rw [card_filter, card_filter, Fin.sum_univ_add]
  simp only [Fin.append_left, Fin.append_right]
  ring

example := C76_energy_empirical (env := stdEnv)
  (energyCall_mat ![![0, 1], ![2, (5 : ℝ)]] ![![0, 1], ![2, 5], ![3, (3 : ℝ)]] zero_le_one (.enum .v))
  (energyCall_mat (Fin.append ![![0, 1], ![2, (5 : ℝ)]] ![![0, 1], ![2, (5 : ℝ)]])
    (Fin.append ![![0, 1], ![2, 5], ![3, (3 : ℝ)]] ![![0, 1], ![2, 5], ![3, (3 : ℝ)]]) zero_le_one (.enum .v))
  rfl rfl rfl (by norm_num) (by norm_num) (by norm_num) (by norm_num) (sameEmpirical_twice _)
  (sameEmpirical_twice _)

/-! ### C77 -/

/-- C77: if no observation of `x` moves by more than `δ`, the squared distance covariance with `y` changes by
at most `(2 δ) ^ exponent` times the distance standard deviation of `y`, for exponents up to one. -/
theorem C77_dcov_stability {X X' : Fin n → Fin p → ℝ} {Y : Fin n → Fin q → ℝ} {δ : ℝ}
    (h : Supported env x y o X Y) (h' : Supported env x' y o X' Y) (hy : Supported env y y o Y Y)
    (he : 0 < o.exponent) (he1 : o.exponent ≤ 1) (hn : 0 < n)
    (hδ : ∀ i, Real.sqrt (∑ c, (X i c - X' i c) ^ 2) ≤ δ) :
    ∃ v v' s : ℝ, (distanceCovarianceSqr env x y o).out = .ok (.fin v) ∧
      (distanceCovarianceSqr env x' y o).out = .ok (.fin v') ∧
      (distanceCovariance env y y o).out = .ok (.fin s) ∧
      |v' - v| ≤ (2 * δ) ^ o.exponent * s := by
  refine ⟨_, _, _, distanceCovarianceSqr_ok h hn, distanceCovarianceSqr_ok h' hn, distanceCovariance_ok hy hn, ?_⟩
  have hδ0 : 0 ≤ δ := (Real.sqrt_nonneg _).trans (hδ ⟨0, hn⟩)
  refine Spec.abs_dcovSqr_sub_le _ _ _ (Real.rpow_nonneg (by linarith) _) fun i j => ?_
  rw [two_mul]
  exact Spec.abs_dist_sub_le he.le he1 (hδ i) (hδ j)

/-- C77: the distance standard deviation changes by at most `(2 δ) ^ exponent`. -/
theorem C77_dstd_stability {X X' : Fin n → Fin p → ℝ} {δ : ℝ} (h : Supported env x x o X X)
    (h' : Supported env x' x' o X' X') (he : 0 < o.exponent) (he1 : o.exponent ≤ 1) (hn : 0 < n)
    (hδ : ∀ i, Real.sqrt (∑ c, (X i c - X' i c) ^ 2) ≤ δ) :
    ∃ s s' : ℝ, (distanceCovariance env x x o).out = .ok (.fin s) ∧
      (distanceCovariance env x' x' o).out = .ok (.fin s') ∧ |s' - s| ≤ (2 * δ) ^ o.exponent := by
  refine ⟨_, _, distanceCovariance_ok h hn, distanceCovariance_ok h' hn, ?_⟩
  have hδ0 : 0 ≤ δ := (Real.sqrt_nonneg _).trans (hδ ⟨0, hn⟩)
  refine Spec.abs_sqrt_dvar_sub_le _ _ (Real.rpow_nonneg (by linarith) _) fun i j => ?_
  rw [two_mul]
  exact Spec.abs_dist_sub_le he.le he1 (hδ i) (hδ j)

/-- C77 for the bias-corrected estimator. -/
theorem C77_u_dcov_stability {X X' : Fin n → Fin p → ℝ} {Y : Fin n → Fin q → ℝ} {δ : ℝ}
    (h : Supported env x y o X Y) (h' : Supported env x' y o X' Y) (hy : Supported env y y o Y Y)
    (he : 0 < o.exponent) (he1 : o.exponent ≤ 1) (hn : 3 < n)
    (hδ : ∀ i, Real.sqrt (∑ c, (X i c - X' i c) ^ 2) ≤ δ) :
    ∃ v v' w : ℝ, (uDistanceCovarianceSqr env x y o).out = .ok (.fin v) ∧
      (uDistanceCovarianceSqr env x' y o).out = .ok (.fin v') ∧
      (uDistanceCovarianceSqr env y y o).out = .ok (.fin w) ∧
      |v' - v| ≤ Real.sqrt ((n - 1) / (n - 3)) * (2 * δ) ^ o.exponent * Real.sqrt w := by
  refine ⟨_, _, _, uDistanceCovarianceSqr_ok h hn he.ne', uDistanceCovarianceSqr_ok h' hn he.ne',
    uDistanceCovarianceSqr_ok hy hn he.ne', ?_⟩
  have hδ0 : 0 ≤ δ := (Real.sqrt_nonneg _).trans (hδ ⟨0, by omega⟩)
  refine Spec.abs_uDcovSqr_sub_le hn _ _ _ (Spec.distMat_symm _ _) (Spec.distMat_symm _ _)
    (Spec.distMat_diag he.ne' _) (Spec.distMat_diag he.ne' _) (Real.rpow_nonneg (by linarith) _) fun i j => ?_
  rw [two_mul]
  exact Spec.abs_dist_sub_le he.le he1 (hδ i) (hδ j)

/-- C77 for the energy distance (V-statistic): the observations of `x` move by at most `δ`, those of `y` by
at most `ε`. -/
theorem C77_energy_stability {X X' : Fin n → Fin p → ℝ} {Y Y' : Fin m → Fin p → ℝ} {δ ε : ℝ}
    (h : EnergyCall x y e X Y) (h' : EnergyCall x' y' e X' Y') (hs : e.stat = .enum .v) (hn : 0 < n)
    (hm : 0 < m) (he : 0 < e.exponent) (he1 : e.exponent ≤ 1)
    (hδ : ∀ i, Real.sqrt (∑ c, (X i c - X' i c) ^ 2) ≤ δ)
    (hε : ∀ i, Real.sqrt (∑ c, (Y i c - Y' i c) ^ 2) ≤ ε) :
    ∃ v v' k k', (energyDistance env x y e).out = .ok ⟨.fin v, k⟩ ∧
      (energyDistance env x' y' e).out = .ok ⟨.fin v', k'⟩ ∧
      |v' - v| ≤ 2 * (δ + ε) ^ e.exponent + (2 * δ) ^ e.exponent + (2 * ε) ^ e.exponent := by
  refine ⟨_, _, _, _, congrArg PyM.out (energyDistance_v h (by rw [hs]; rfl) hn hm),
    congrArg PyM.out (energyDistance_v h' (by rw [hs]; rfl) hn hm), ?_⟩
  have a1 := abs_le.1 (Spec.abs_crossMean_sub_le hn hm he.le he1 hδ hε)
  have a2 := abs_le.1 (Spec.abs_crossMean_sub_le hn hn he.le he1 hδ hδ)
  have a3 := abs_le.1 (Spec.abs_crossMean_sub_le hm hm he.le he1 hε hε)
  rw [two_mul δ, two_mul ε]
  unfold Spec.energyV
  rw [abs_le]
  constructor <;> linarith [a1.1, a1.2, a2.1, a2.2, a3.1, a3.2]

/-- One observation moves from 1 to 1.5. -/
example := C77_dcov_stability (δ := 1 / 2)
  (supported_vec (n := 4) (by norm_num) ![0, 1, 1, (4 : ℝ)] ![2, 5, 5, (3 : ℝ)] .avl .auto (Or.inl rfl))
  (supported_vec (n := 4) (by norm_num) ![0, 3 / 2, 1, (4 : ℝ)] ![2, 5, 5, (3 : ℝ)] .avl .auto (Or.inl rfl))
  (supported_vec (n := 4) (by norm_num) ![2, 5, 5, (3 : ℝ)] ![2, 5, 5, (3 : ℝ)] .avl .auto (Or.inl rfl))
  zero_lt_one le_rfl (by norm_num) (by
    intro i
    rw [Real.sqrt_le_left (by norm_num)]
    fin_cases i <;> norm_num)
example := C77_dstd_stability (δ := 1 / 2)
  (supported_vec (n := 4) (by norm_num) ![0, 1, 1, (4 : ℝ)] ![0, 1, 1, (4 : ℝ)] .avl .auto (Or.inl rfl))
  (supported_vec (n := 4) (by norm_num) ![0, 3 / 2, 1, (4 : ℝ)] ![0, 3 / 2, 1, (4 : ℝ)] .avl .auto
    (Or.inl rfl))
  zero_lt_one le_rfl (by norm_num) (by
    intro i
    rw [Real.sqrt_le_left (by norm_num)]
    fin_cases i <;> norm_num)
example := C77_u_dcov_stability (δ := 1 / 2)
  (supported_vec (n := 4) (by norm_num) ![0, 1, 1, (4 : ℝ)] ![2, 5, 5, (3 : ℝ)] .avl .auto (Or.inl rfl))
  (supported_vec (n := 4) (by norm_num) ![0, 3 / 2, 1, (4 : ℝ)] ![2, 5, 5, (3 : ℝ)] .avl .auto (Or.inl rfl))
  (supported_vec (n := 4) (by norm_num) ![2, 5, 5, (3 : ℝ)] ![2, 5, 5, (3 : ℝ)] .avl .auto (Or.inl rfl))
  zero_lt_one le_rfl (by norm_num) (by
    intro i
    rw [Real.sqrt_le_left (by norm_num)]
    fin_cases i <;> norm_num)
example := C77_energy_stability (env := stdEnv) (δ := 1) (ε := 0)
  (energyCall_mat ![![0, 1], ![2, (5 : ℝ)]] ![![0, 1], ![2, 5], ![3, (3 : ℝ)]] (by norm_num : (0 : ℝ) ≤ 1 / 2)
    (.enum .v))
  (energyCall_mat ![![0, 1], ![2, (6 : ℝ)]] ![![0, 1], ![2, 5], ![3, (3 : ℝ)]] (by norm_num : (0 : ℝ) ≤ 1 / 2)
    (.enum .v)) rfl (by norm_num) (by norm_num) (by norm_num) (by norm_num)
  (by
    intro i
    rw [Real.sqrt_le_left (by norm_num)]
    fin_cases i <;> norm_num [Fin.sum_univ_two]) (by intro i; simp)

/-! ### C78 -/

/-- C78: the square root of the energy distance (V-statistic) satisfies the triangle inequality for exponents in
`(0, 2]`. With C31 and C54 it is a metric between empirical distributions for exponents below 2. -/
theorem C78_energy_triangle {X : Fin n → Fin p → ℝ} {Y : Fin m → Fin p → ℝ} {Z : Fin k → Fin p → ℝ}
    (hxy : EnergyCall x y e X Y) (hyz : EnergyCall y z e Y Z) (hxz : EnergyCall x z e X Z)
    (hs : e.stat = .enum .v) (hn : 0 < n) (hm : 0 < m) (hk : 0 < k) (he : 0 < e.exponent)
    (he2 : e.exponent ≤ 2) :
    ∃ a b c k₁ k₂ k₃, (energyDistance env x y e).out = .ok ⟨.fin a, k₁⟩ ∧
      (energyDistance env y z e).out = .ok ⟨.fin b, k₂⟩ ∧
      (energyDistance env x z e).out = .ok ⟨.fin c, k₃⟩ ∧
      Real.sqrt c ≤ Real.sqrt a + Real.sqrt b :=
  ⟨_, _, _, _, _, _, congrArg PyM.out (energyDistance_v hxy (by rw [hs]; rfl) hn hm),
    congrArg PyM.out (energyDistance_v hyz (by rw [hs]; rfl) hm hk),
    congrArg PyM.out (energyDistance_v hxz (by rw [hs]; rfl) hn hk),
    Spec.sqrt_energyV_triangle hn hm hk X Y Z he he2⟩

example := C78_energy_triangle (env := stdEnv)
  (energyCall_mat ![![0, 1], ![2, (5 : ℝ)]] ![![0, 1], ![2, 5], ![3, (3 : ℝ)]] zero_le_one (.enum .v))
  (energyCall_mat ![![0, 1], ![2, 5], ![3, (3 : ℝ)]] ![![7, (1 : ℝ)]] zero_le_one (.enum .v))
  (energyCall_mat ![![0, 1], ![2, (5 : ℝ)]] ![![7, (1 : ℝ)]] zero_le_one (.enum .v)) rfl (by norm_num)
  (by norm_num) (by norm_num) zero_lt_one one_le_two

/-- The energy distance itself does not satisfy the triangle inequality: on the line, from 0 to 2 through the
sample `0, 2`. -/
theorem C78_root_needed :
    ∃ (a b c : ℝ) (k : _), (energyDistance stdEnv (npMat ![![(0 : ℝ)]]) (npMat ![![0], ![(2 : ℝ)]])
        ⟨1, none, .enum .v⟩).out = .ok ⟨.fin a, k⟩ ∧
      (energyDistance stdEnv (npMat ![![0], ![(2 : ℝ)]]) (npMat ![![(2 : ℝ)]])
        ⟨1, none, .enum .v⟩).out = .ok ⟨.fin b, k⟩ ∧
      (energyDistance stdEnv (npMat ![![(0 : ℝ)]]) (npMat ![![(2 : ℝ)]])
        ⟨1, none, .enum .v⟩).out = .ok ⟨.fin c, k⟩ ∧ a + b < c := by
  have hd : ∀ u v : Fin 1 → ℝ, Spec.dist 1 u v = |u 0 - v 0| := by
    intro u v
    rw [Spec.dist, Real.rpow_one, Fin.sum_univ_one, Real.sqrt_sq_eq_abs]
  refine ⟨_, _, _, _, congrArg PyM.out (energyDistance_v (energyCall_mat ![![(0 : ℝ)]] ![![0], ![(2 : ℝ)]]
      zero_le_one (.enum .v)) rfl (by norm_num) (by norm_num)),
    congrArg PyM.out (energyDistance_v (energyCall_mat ![![0], ![(2 : ℝ)]] ![![(2 : ℝ)]]
      zero_le_one (.enum .v)) rfl (by norm_num) (by norm_num)),
    congrArg PyM.out (energyDistance_v (energyCall_mat ![![(0 : ℝ)]] ![![(2 : ℝ)]]
      zero_le_one (.enum .v)) rfl (by norm_num) (by norm_num)), ?_⟩
  simp only [Spec.energyV, Spec.crossMean, hd]
  simp [Fin.sum_univ_succ]
  norm_num

end Dcor.Props

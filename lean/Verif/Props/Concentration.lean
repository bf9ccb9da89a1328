/-
Property C111: how far the statistics of samples of a given size are from their limits, for distributions with bounded values.
-/
import Mathlib.Analysis.Complex.ExponentialBounds
import Verif.Proofs.BoundedDiffs
import Verif.Props.Unbiasedness

namespace Dcor.Props

open Finset MeasureTheory ProbabilityTheory Filter

variable {env : Env} {p q n m : ℕ} {α A B D : ℝ} {Ω : Type*} {mΩ : MeasurableSpace Ω} {P : Measure Ω} [IsProbabilityMeasure P]

/-! ### Distance covariance -/

section Dcov

variable {Z : Fin n → Ω → (Fin p → ℝ) × (Fin q → ℝ)} {μ : Measure ((Fin p → ℝ) × (Fin q → ℝ))} [IsProbabilityMeasure μ]
  {K : Set ((Fin p → ℝ) × (Fin q → ℝ))}

theorem measurable_dcov_stats (hα : 0 ≤ α) :
    (Measurable fun d : Fin n → (Fin p → ℝ) × (Fin q → ℝ) =>
      Spec.uDcovSqr (Spec.distMat α fun i => (d i).1) (Spec.distMat α fun i => (d i).2)) ∧
    Measurable fun d : Fin n → (Fin p → ℝ) × (Fin q → ℝ) =>
      Spec.dcovSqr (Spec.distMat α fun i => (d i).1) (Spec.distMat α fun i => (d i).2) := by
  have h1 (i j : Fin n) : Measurable fun d : Fin n → (Fin p → ℝ) × (Fin q → ℝ) => Spec.dist α (d i).1 (d j).1 := by
    have h := (Charac.dist_continuous hα).measurable.comp
      (by fun_prop : Measurable fun d : Fin n → (Fin p → ℝ) × (Fin q → ℝ) => ((d i).1, (d j).1))
    simp only [Function.comp_def] at h
    exact h
  have h2 (i j : Fin n) : Measurable fun d : Fin n → (Fin p → ℝ) × (Fin q → ℝ) => Spec.dist α (d i).2 (d j).2 := by
    have h := (Charac.dist_continuous hα).measurable.comp
      (by fun_prop : Measurable fun d : Fin n → (Fin p → ℝ) × (Fin q → ℝ) => ((d i).2, (d j).2))
    simp only [Function.comp_def] at h
    exact h
  have h3 (i j : Fin n) : Measurable fun d : Fin n → (Fin p → ℝ) × (Fin q → ℝ) =>
      Spec.uCentre (Spec.distMat α fun i => (d i).1) i j := by
    unfold Spec.uCentre Spec.distMat
    split_ifs
    · exact measurable_const
    · fun_prop
  have h4 (i j : Fin n) : Measurable fun d : Fin n → (Fin p → ℝ) × (Fin q → ℝ) =>
      Spec.uCentre (Spec.distMat α fun i => (d i).2) i j := by
    unfold Spec.uCentre Spec.distMat
    split_ifs
    · exact measurable_const
    · fun_prop
  constructor
  · unfold Spec.uDcovSqr Spec.uInner
    fun_prop
  · unfold Spec.dcovSqr Spec.centre Spec.distMat
    fun_prop

/-- C111: if the distances of the values are at most `A` and `B`, `u_distance_covariance_sqr` of `n` independent observations,
with any method, differs by `t` or more from the distance covariance of the distribution with a probability of at most
`2 exp (- (n - 4) ^ 2 t ^ 2 / (72 n A ^ 2 B ^ 2))`. -/
theorem C111_u_covariance (hα : 0 < α) (hn : 3 < n) (hZ : Spec.Observations P Z μ) (hK : ∀ᵐ z ∂μ, z ∈ K)
    (hA : ∀ z ∈ K, ∀ z' ∈ K, Spec.dist α z.1 z'.1 ≤ A) (hB : ∀ z ∈ K, ∀ z' ∈ K, Spec.dist α z.2 z'.2 ≤ B) :
    ∃ v : Ω → ℝ, (∀ ω x y o, o.exponent = α →
      Supported env x y o (fun i => (Z i ω).1) (fun i => (Z i ω).2) →
      (uDistanceCovarianceSqr env x y o).out = .ok (.fin (v ω))) ∧
    ∀ t : ℝ, 0 ≤ t → P.real {ω | t ≤ |v ω - Spec.dcovPop α μ|}
      ≤ 2 * Real.exp (-((n - 4) ^ 2 * t ^ 2) / (72 * n * (A * B) ^ 2)) := by
  have hm := Concentration.bounded_moments hα hK hA hB
  obtain ⟨h, -⟩ := Expectation.dcov_expect hα hZ.measurable hZ.law hZ.indep hm rfl rfl rfl
  refine ⟨fun ω => Spec.uDcovSqr (Spec.distMat α fun i => (Z i ω).1) (Spec.distMat α fun i => (Z i ω).2),
    fun ω x y o ho hs => by rw [uDistanceCovarianceSqr_ok hs hn (by rw [ho]; exact hα.ne'), ho], fun t ht => ?_⟩
  have e := (h hn).2
  change _ = Spec.dcovPop α μ at e
  rcases (by omega : n = 4 ∨ 4 < n) with h4 | h4
  · have e4 : (n : ℝ) = 4 := by exact_mod_cast h4
    refine (measureReal_le_one).trans ?_
    rw [e4]
    norm_num
  · have hnR : (4 : ℝ) < n := by exact_mod_cast h4
    obtain ⟨K', hK', mK', sK'⟩ := hK.exists_measurable_mem
    obtain ⟨z₀, h₀⟩ := hK.exists
    have hA0 : 0 ≤ A := (Spec.dist_nonneg _ _ _).trans (hA _ h₀ _ h₀)
    have hB0 : 0 ≤ B := (Spec.dist_nonneg _ _ _).trans (hB _ h₀ _ h₀)
    have p4 : (0 : ℝ) < n - 4 := by linarith
    have key := Concentration.deviation hZ mK' hK' (measurable_dcov_stats (n := n) hα.le).1
      (c := 12 * (A * B) / (n - 4)) (by positivity) (fun z hz i s hs =>
        Concentration.Differ.uDcovSqr h4
          (Concentration.differ_dist (f := Prod.fst) hα (fun z hz z' hz' => hA z (sK' z hz) z' (sK' z' hz')) hz i hs)
          (Concentration.differ_dist (f := Prod.snd) hα (fun z hz z' hz' => hB z (sK' z hz) z' (sK' z' hz')) hz i hs)) ht
    rw [e] at key
    refine key.trans (le_of_eq ?_)
    congr 2
    by_cases h0 : A * B = 0
    · rw [h0]
      simp
    · field_simp
      ring

/-- C111: the same for `distance_covariance_sqr`, with `t` increased by `10 A B / n` for its bias. -/
theorem C111_covariance (hα : 0 < α) (hn : 0 < n) (hZ : Spec.Observations P Z μ) (hK : ∀ᵐ z ∂μ, z ∈ K)
    (hA : ∀ z ∈ K, ∀ z' ∈ K, Spec.dist α z.1 z'.1 ≤ A) (hB : ∀ z ∈ K, ∀ z' ∈ K, Spec.dist α z.2 z'.2 ≤ B) :
    ∃ v : Ω → ℝ, (∀ ω x y o, o.exponent = α →
      Supported env x y o (fun i => (Z i ω).1) (fun i => (Z i ω).2) →
      (distanceCovarianceSqr env x y o).out = .ok (.fin (v ω))) ∧
    ∀ t : ℝ, 0 ≤ t → P.real {ω | t + 10 * (A * B) / n ≤ |v ω - Spec.dcovPop α μ|}
      ≤ 2 * Real.exp (-(n * t ^ 2) / (72 * (A * B) ^ 2)) := by
  have hm := Concentration.bounded_moments hα hK hA hB
  obtain ⟨-, h⟩ := Expectation.dcov_expect hα hZ.measurable hZ.law hZ.indep hm rfl rfl rfl
  refine ⟨fun ω => Spec.dcovSqr (Spec.distMat α fun i => (Z i ω).1) (Spec.distMat α fun i => (Z i ω).2),
    fun ω x y o ho hs => by rw [distanceCovarianceSqr_ok hs hn, ho], fun t ht => ?_⟩
  have e := (h hn).2
  have hnR : (1 : ℝ) ≤ n := by exact_mod_cast hn
  obtain ⟨K', hK', mK', sK'⟩ := hK.exists_measurable_mem
  obtain ⟨z₀, h₀⟩ := hK.exists
  have hA0 : 0 ≤ A := (Spec.dist_nonneg _ _ _).trans (hA _ h₀ _ h₀)
  have hB0 : 0 ≤ B := (Spec.dist_nonneg _ _ _).trans (hB _ h₀ _ h₀)
  have key := Concentration.deviation hZ mK' hK' (measurable_dcov_stats (n := n) hα.le).2
    (c := 12 * (A * B) / n) (by positivity) (fun z hz i s hs =>
      Concentration.Differ.dcovSqr
        (Concentration.differ_dist (f := Prod.fst) hα (fun z hz z' hz' => hA z (sK' z hz) z' (sK' z' hz')) hz i hs)
        (Concentration.differ_dist (f := Prod.snd) hα (fun z hz z' hz' => hB z (sK' z hz) z' (sK' z' hz')) hz i hs)) ht
  have dn := fun z z' : (Fin p → ℝ) × (Fin q → ℝ) => Spec.dist_nonneg α z.1 z'.1
  have dn' := fun z z' : (Fin p → ℝ) × (Fin q → ℝ) => Spec.dist_nonneg α z.2 z'.2
  have r1 (z) (hz : z ∈ K) := Concentration.mean_range hK (fun z' => dn z z') (fun z' hz' => hA z hz z' hz')
  have r2 (z) (hz : z ∈ K) := Concentration.mean_range hK (fun z' => dn' z z') (fun z' hz' => hB z hz z' hz')
  have r3 (z) (hz : z ∈ K) := Concentration.mean_range hK (fun z' => mul_nonneg (dn z z') (dn' z z'))
    (fun z' hz' => mul_le_mul (hA z hz z' hz') (hB z hz z' hz') (dn' z z') hA0)
  have m1 := Concentration.mean_range hK (fun z => integral_nonneg (μ := μ) fun z' => dn z z') (fun z hz => (r1 z hz).2)
  have m2 := Concentration.mean_range hK (fun z => integral_nonneg (μ := μ) fun z' => dn' z z') (fun z hz => (r2 z hz).2)
  have m3 := Concentration.mean_range hK (fun z => integral_nonneg (μ := μ) fun z' => mul_nonneg (dn z z') (dn' z z'))
    (fun z hz => (r3 z hz).2)
  have m4 := Concentration.mean_range hK
    (fun z => mul_nonneg (integral_nonneg (μ := μ) fun z' => dn z z') (integral_nonneg (μ := μ) fun z' => dn' z z'))
    (fun z hz => (Concentration.mul_range (r1 z hz).1 (r2 z hz).1 (r1 z hz).2 (r2 z hz).2).2)
  have bias := Concentration.bias_le hnR m3 m4 (Concentration.mul_range m1.1 m2.1 m1.2 m2.2)
  rw [← e] at bias
  change |_ - Spec.dcovPop α μ| ≤ _ at bias
  refine (measureReal_mono fun ω hω => ?_).trans (key.trans (le_of_eq ?_))
  · change t ≤ _
    change t + _ ≤ _ at hω
    have := abs_sub_le (Spec.dcovSqr (Spec.distMat α fun i => (Z i ω).1) (Spec.distMat α fun i => (Z i ω).2))
      (∫ ω, Spec.dcovSqr (Spec.distMat α fun i => (Z i ω).1) (Spec.distMat α fun i => (Z i ω).2) ∂P) (Spec.dcovPop α μ)
    linarith
  · congr 2
    by_cases h0 : A * B = 0
    · rw [h0]
      simp
    · field_simp
      ring

/-- C111: a number of observations that is enough for an error below `ε` with a probability of at least `1 - δ`, whatever the
distribution is. -/
theorem C111_sample_size (hα : 0 < α) (hZ : Spec.Observations P Z μ) (hK : ∀ᵐ z ∂μ, z ∈ K)
    (hA : ∀ z ∈ K, ∀ z' ∈ K, Spec.dist α z.1 z'.1 ≤ A) (hB : ∀ z ∈ K, ∀ z' ∈ K, Spec.dist α z.2 z'.2 ≤ B) (hA0 : 0 < A)
    (hB0 : 0 < B) {ε δ : ℝ} (hε : 0 < ε) (hδ : 0 < δ) (h1 : 20 * (A * B) ≤ n * ε)
    (h2 : 288 * (A * B) ^ 2 * Real.log (2 / δ) ≤ n * ε ^ 2) :
    ∃ v : Ω → ℝ, (∀ ω x y o, o.exponent = α →
      Supported env x y o (fun i => (Z i ω).1) (fun i => (Z i ω).2) →
      (distanceCovarianceSqr env x y o).out = .ok (.fin (v ω))) ∧
    1 - δ ≤ P.real {ω | |v ω - Spec.dcovPop α μ| < ε} := by
  have hn : 0 < n := by
    rcases Nat.eq_zero_or_pos n with h | h
    · have : 0 < A * B := mul_pos hA0 hB0
      rw [h] at h1
      norm_num at h1
      linarith
    · exact h
  have hnR : (0 : ℝ) < n := by exact_mod_cast hn
  obtain ⟨v, hv, h⟩ := C111_covariance (env := env) hα hn hZ hK hA hB
  refine ⟨v, hv, ?_⟩
  have hAB : 0 < A * B := mul_pos hA0 hB0
  have ht := h (ε / 2) (by linarith)
  have b : P.real {ω | ε ≤ |v ω - Spec.dcovPop α μ|} ≤ δ := by
    refine (measureReal_mono fun ω hω => ?_).trans (ht.trans ?_)
    · change ε / 2 + 10 * (A * B) / n ≤ _
      change ε ≤ _ at hω
      have : 10 * (A * B) / n ≤ ε / 2 := by
        rw [div_le_div_iff₀ hnR two_pos]
        linarith
      linarith
    · have : -(n * (ε / 2) ^ 2) / (72 * (A * B) ^ 2) ≤ Real.log (δ / 2) := by
        rw [div_le_iff₀ (by positivity)]
        have e : Real.log (2 / δ) = -Real.log (δ / 2) := by rw [← Real.log_inv, inv_div]
        rw [e] at h2
        linarith
      have := Real.exp_le_exp.2 this
      rw [Real.exp_log (by linarith)] at this
      linarith
  have hc : (1 : ℝ) ≤ P.real {ω | ε ≤ |v ω - Spec.dcovPop α μ|} + P.real {ω | |v ω - Spec.dcovPop α μ| < ε} := by
    rw [← probReal_univ (μ := P)]
    refine le_trans (measureReal_mono fun ω _ => ?_) (measureReal_union_le _ _)
    exact le_or_gt ε _
  linarith

end Dcov

/-! ### Energy distance -/

section Energy

variable {X : Fin n → Ω → Fin p → ℝ} {Y : Fin m → Ω → Fin p → ℝ} {μ ν : Measure (Fin p → ℝ)} [IsProbabilityMeasure μ]
  [IsProbabilityMeasure ν] {K : Set (Fin p → ℝ)}

theorem measurable_energy_stats (hα : 0 ≤ α) :
    (Measurable fun d : (Fin n → Fin p → ℝ) × (Fin m → Fin p → ℝ) => Spec.energyU α d.1 d.2) ∧
    Measurable fun d : (Fin n → Fin p → ℝ) × (Fin m → Fin p → ℝ) => Spec.energyV α d.1 d.2 := by
  have h1 (i j : Fin n) : Measurable fun d : (Fin n → Fin p → ℝ) × (Fin m → Fin p → ℝ) => Spec.dist α (d.1 i) (d.1 j) := by
    have h := (Charac.dist_continuous hα).measurable.comp
      (by fun_prop : Measurable fun d : (Fin n → Fin p → ℝ) × (Fin m → Fin p → ℝ) => (d.1 i, d.1 j))
    simp only [Function.comp_def] at h
    exact h
  have h2 (i j : Fin m) : Measurable fun d : (Fin n → Fin p → ℝ) × (Fin m → Fin p → ℝ) => Spec.dist α (d.2 i) (d.2 j) := by
    have h := (Charac.dist_continuous hα).measurable.comp
      (by fun_prop : Measurable fun d : (Fin n → Fin p → ℝ) × (Fin m → Fin p → ℝ) => (d.2 i, d.2 j))
    simp only [Function.comp_def] at h
    exact h
  have h3 (i : Fin n) (j : Fin m) : Measurable fun d : (Fin n → Fin p → ℝ) × (Fin m → Fin p → ℝ) =>
      Spec.dist α (d.1 i) (d.2 j) := by
    have h := (Charac.dist_continuous hα).measurable.comp
      (by fun_prop : Measurable fun d : (Fin n → Fin p → ℝ) × (Fin m → Fin p → ℝ) => (d.1 i, d.2 j))
    simp only [Function.comp_def] at h
    exact h
  have c1 : Measurable fun d : (Fin n → Fin p → ℝ) × (Fin m → Fin p → ℝ) => Spec.crossMean α d.1 d.2 :=
    (Finset.measurable_fun_sum _ fun i _ => Finset.measurable_fun_sum _ fun j _ => h3 i j).div_const _
  have c2 : Measurable fun d : (Fin n → Fin p → ℝ) × (Fin m → Fin p → ℝ) => Spec.crossMean α d.1 d.1 :=
    (Finset.measurable_fun_sum _ fun i _ => Finset.measurable_fun_sum _ fun j _ => h1 i j).div_const _
  have c3 : Measurable fun d : (Fin n → Fin p → ℝ) × (Fin m → Fin p → ℝ) => Spec.crossMean α d.2 d.2 :=
    (Finset.measurable_fun_sum _ fun i _ => Finset.measurable_fun_sum _ fun j _ => h2 i j).div_const _
  have c4 : Measurable fun d : (Fin n → Fin p → ℝ) × (Fin m → Fin p → ℝ) => Spec.pairMean α d.1 :=
    (Finset.measurable_fun_sum _ fun i _ => Finset.measurable_fun_sum _ fun j _ => h1 i j).div_const _
  have c5 : Measurable fun d : (Fin n → Fin p → ℝ) × (Fin m → Fin p → ℝ) => Spec.pairMean α d.2 :=
    (Finset.measurable_fun_sum _ fun i _ => Finset.measurable_fun_sum _ fun j _ => h2 i j).div_const _
  exact ⟨((c1.const_mul 2).sub c4).sub c5, ((c1.const_mul 2).sub c2).sub c3⟩

omit [IsProbabilityMeasure P] in
theorem energy_exponent {D t : ℝ} (hn : 0 < n) (hm : 0 < m) : -(2 * t ^ 2) / (n * (4 * D / n) ^ 2 + m * (4 * D / m) ^ 2)
    = -(n * m * t ^ 2) / (8 * (n + m) * D ^ 2) := by
  have hn' : (0 : ℝ) < n := by exact_mod_cast hn
  have hm' : (0 : ℝ) < m := by exact_mod_cast hm
  by_cases h0 : D = 0
  · rw [h0]
    simp
  · have e : (n : ℝ) * (4 * D / n) ^ 2 + m * (4 * D / m) ^ 2 = 16 * (n + m) * D ^ 2 / (n * m) := by
      field_simp
      ring
    rw [e]
    have : (n : ℝ) + m ≠ 0 := by positivity
    field_simp
    ring

/-- C111: if the distances of the values are at most `D`, the U-statistic of `energy_distance` of independent samples of sizes
`n` and `m` differs by `t` or more from the energy distance of the distributions with a probability of at most
`2 exp (- n m t ^ 2 / (8 (n + m) D ^ 2))`. -/
theorem C111_energy_u (hα : 0 < α) (hn : 1 < n) (hm : 1 < m) (hX : Spec.Observations P X μ) (hY : Spec.Observations P Y ν)
    (hi : IndepFun (fun ω i => X i ω) (fun ω j => Y j ω) P) (hμ : ∀ᵐ x ∂μ, x ∈ K) (hν : ∀ᵐ y ∂ν, y ∈ K)
    (hD : ∀ z ∈ K, ∀ z' ∈ K, Spec.dist α z z' ≤ D) :
    ∃ v : Ω → ℝ, (∀ ω x y o, o.exponent = α → o.stat.resolve env = .ok .u →
      EnergyCall x y o (fun i => X i ω) (fun i => Y i ω) →
      (energyDistance env x y o).out.map Scalar.val = .ok (.fin (v ω))) ∧
    ∀ t : ℝ, 0 ≤ t → P.real {ω | t ≤ |v ω - Spec.energyPop α μ ν|}
      ≤ 2 * Real.exp (-(n * m * t ^ 2) / (8 * (n + m) * D ^ 2)) := by
  have hij : ∀ i j, IndepFun (X i) (Y j) P := fun i j => hi.comp (measurable_pi_apply i) (measurable_pi_apply j)
  obtain ⟨h, -⟩ := Expectation.energy_expect hα hX.measurable hY.measurable hX.law hY.law hij
    (fun _ _ h => hX.indep.indepFun h) (fun _ _ h => hY.indep.indepFun h) (Concentration.bounded_moment hα hμ hD)
    (Concentration.bounded_moment hα hν hD) hn hm
  refine ⟨fun ω => Spec.energyU α (fun i => X i ω) fun i => Y i ω, fun ω x y o ho hs hc => ?_, fun t ht => ?_⟩
  · rw [energyDistance_u hc hs hn hm, ho]
    rfl
  · obtain ⟨K₁, hK₁, mK₁, sK₁⟩ := hμ.exists_measurable_mem
    obtain ⟨K₂, hK₂, mK₂, sK₂⟩ := hν.exists_measurable_mem
    obtain ⟨z₀, h₀⟩ := hμ.exists
    have hD0 : 0 ≤ D := (Spec.dist_nonneg _ _ _).trans (hD _ h₀ _ h₀)
    have key := Concentration.deviation_two hX hY hi mK₁ mK₂ hK₁ hK₂ (measurable_energy_stats (n := n) (m := m) hα.le).1
      (c := 4 * D / n) (d := 4 * D / m) (by positivity) (by positivity)
      (fun x y hx hy i s hs => (Concentration.energy_diff hα hD (fun i => sK₁ _ (hx i)) (fun j => sK₂ _ (hy j)) (by omega) i
        (sK₁ s hs)).1)
      (fun x y hx hy j s hs => by
        have := (Concentration.energy_diff hα hD (fun j => sK₂ _ (hy j)) (fun i => sK₁ _ (hx i)) (by omega) j (sK₂ s hs)).1
        rwa [Concentration.energyU_comm α y x, Concentration.energyU_comm α (Function.update y j s) x] at this) ht
    rw [energy_exponent (by omega) (by omega)] at key
    have e := h.2
    simp only at key
    rwa [e] at key

/-- C111: the same for the V-statistic, with `t` increased by `D / n + D / m` for its bias. -/
theorem C111_energy_v (hα : 0 < α) (hn : 1 < n) (hm : 1 < m) (hX : Spec.Observations P X μ) (hY : Spec.Observations P Y ν)
    (hi : IndepFun (fun ω i => X i ω) (fun ω j => Y j ω) P) (hμ : ∀ᵐ x ∂μ, x ∈ K) (hν : ∀ᵐ y ∂ν, y ∈ K)
    (hD : ∀ z ∈ K, ∀ z' ∈ K, Spec.dist α z z' ≤ D) :
    ∃ v : Ω → ℝ, (∀ ω x y o, o.exponent = α → o.stat.resolve env = .ok .v →
      EnergyCall x y o (fun i => X i ω) (fun i => Y i ω) →
      (energyDistance env x y o).out.map Scalar.val = .ok (.fin (v ω))) ∧
    ∀ t : ℝ, 0 ≤ t → P.real {ω | t + D / n + D / m ≤ |v ω - Spec.energyPop α μ ν|}
      ≤ 2 * Real.exp (-(n * m * t ^ 2) / (8 * (n + m) * D ^ 2)) := by
  have hij : ∀ i j, IndepFun (X i) (Y j) P := fun i j => hi.comp (measurable_pi_apply i) (measurable_pi_apply j)
  obtain ⟨-, -, e⟩ := Expectation.energy_expect hα hX.measurable hY.measurable hX.law hY.law hij
    (fun _ _ h => hX.indep.indepFun h) (fun _ _ h => hY.indep.indepFun h) (Concentration.bounded_moment hα hμ hD)
    (Concentration.bounded_moment hα hν hD) hn hm
  refine ⟨fun ω => Spec.energyV α (fun i => X i ω) fun i => Y i ω, fun ω x y o ho hs hc => ?_, fun t ht => ?_⟩
  · rw [energyDistance_v hc hs (by omega) (by omega), ho]
    rfl
  · obtain ⟨K₁, hK₁, mK₁, sK₁⟩ := hμ.exists_measurable_mem
    obtain ⟨K₂, hK₂, mK₂, sK₂⟩ := hν.exists_measurable_mem
    obtain ⟨z₀, h₀⟩ := hμ.exists
    have hD0 : 0 ≤ D := (Spec.dist_nonneg _ _ _).trans (hD _ h₀ _ h₀)
    have key := Concentration.deviation_two hX hY hi mK₁ mK₂ hK₁ hK₂ (measurable_energy_stats (n := n) (m := m) hα.le).2
      (c := 4 * D / n) (d := 4 * D / m) (by positivity) (by positivity)
      (fun x y hx hy i s hs => (Concentration.energy_diff hα hD (fun i => sK₁ _ (hx i)) (fun j => sK₂ _ (hy j)) (by omega) i
        (sK₁ s hs)).2)
      (fun x y hx hy j s hs => by
        have := (Concentration.energy_diff hα hD (fun j => sK₂ _ (hy j)) (fun i => sK₁ _ (hx i)) (by omega) j (sK₂ s hs)).2
        rwa [Spec.energyV_comm α y x, Spec.energyV_comm α (Function.update y j s) x] at this) ht
    rw [energy_exponent (by omega) (by omega)] at key
    refine (measureReal_mono fun ω hω => ?_).trans key
    change t ≤ _
    change t + D / n + D / m ≤ _ at hω
    have m1 := Concentration.mean_range hμ (fun x => integral_nonneg (μ := μ) fun x' => Spec.dist_nonneg α x x')
      (fun x hx => (Concentration.mean_range hμ (fun x' => Spec.dist_nonneg α x x') (fun x' hx' => hD x hx x' hx')).2)
    have m2 := Concentration.mean_range hν (fun x => integral_nonneg (μ := ν) fun x' => Spec.dist_nonneg α x x')
      (fun x hx => (Concentration.mean_range hν (fun x' => Spec.dist_nonneg α x x') (fun x' hx' => hD x hx x' hx')).2)
    have n0 : (0 : ℝ) < n := by exact_mod_cast (by omega : 0 < n)
    have m0 : (0 : ℝ) < m := by exact_mod_cast (by omega : 0 < m)
    have q1 := div_le_div_of_nonneg_right m1.2 n0.le
    have q2 := div_le_div_of_nonneg_right m2.2 m0.le
    have q1' := div_nonneg m1.1 n0.le
    have q2' := div_nonneg m2.1 m0.le
    rw [e]
    have tri := abs_sub_le (Spec.energyV α (fun i => X i ω) fun i => Y i ω)
      (Spec.energyPop α μ ν + (∫ x, ∫ x', Spec.dist α x x' ∂μ ∂μ) / n + (∫ y, ∫ y', Spec.dist α y y' ∂ν ∂ν) / m)
      (Spec.energyPop α μ ν)
    have ab : |Spec.energyPop α μ ν + (∫ x, ∫ x', Spec.dist α x x' ∂μ ∂μ) / n + (∫ y, ∫ y', Spec.dist α y y' ∂ν ∂ν) / m
        - Spec.energyPop α μ ν| ≤ D / n + D / m := by
      rw [abs_le]
      constructor <;> linarith
    simp only
    linarith

end Energy

/-! ### Examples -/

/-- The values of a coin. -/
theorem fair_values {S : Type} [MeasurableSpace S] [MeasurableSingletonClass S] (u v : S) :
    ∀ᵐ x ∂(fair u v), x ∈ ({u, v} : Set S) := by
  have h2 : (2 : ENNReal)⁻¹ ≠ 0 := by simp
  rw [fair, Measure.ae_ennreal_smul_measure_iff h2, ae_add_measure_iff, ae_dirac_eq, ae_dirac_eq]
  exact ⟨Or.inl rfl, Or.inr rfl⟩

theorem log_twenty : Real.log 20 ≤ 3 := by
  rw [Real.log_le_iff_le_exp (by norm_num), show (3 : ℝ) = ((3 : ℕ) : ℝ) * 1 by norm_num, Real.exp_nat_mul]
  have h := Real.exp_one_gt_d9
  have := pow_le_pow_left₀ (by norm_num) h.le 3
  exact le_trans (by norm_num) this

/-- 90000 observations of two equal coins are enough for an error below 1/10 with a probability of 9/10. -/
example : ∃ v : (Fin 90000 → (Fin 1 → ℝ) × (Fin 1 → ℝ)) → ℝ,
    (∀ ω, (distanceCovarianceSqr stdEnv (npMat fun i => (ω i).1) (npMat fun i => (ω i).2) ⟨1, .enum .naive, .auto⟩).out
      = .ok (.fin (v ω))) ∧
    1 - 1 / 10 ≤ (Measure.pi fun _ : Fin 90000 => coins).real {ω | |v ω - 1 / 4| < 1 / 10} := by
  have hd : ∀ z ∈ ({(![0], ![0]), (![1], ![1])} : Set ((Fin 1 → ℝ) × (Fin 1 → ℝ))),
      ∀ z' ∈ ({(![0], ![0]), (![1], ![1])} : Set ((Fin 1 → ℝ) × (Fin 1 → ℝ))),
      Spec.dist 1 z.1 z'.1 ≤ 1 ∧ Spec.dist 1 z.2 z'.2 ≤ 1 := by
    rintro z (rfl | rfl) z' (rfl | rfl) <;> simp [dist_one]
  obtain ⟨v, h1, h2⟩ := C111_sample_size (env := stdEnv) (A := 1) (B := 1) (ε := 1 / 10) (δ := 1 / 10) one_pos
    (exists_observations coins 90000) (fair_values _ _) (fun z hz z' hz' => (hd z hz z' hz').1)
    (fun z hz z' hz' => (hd z hz z' hz').2) one_pos one_pos (by norm_num) (by norm_num) (by norm_num) (by
      have e : (2 : ℝ) / (1 / 10) = 20 := by norm_num
      rw [e]
      have := log_twenty
      norm_num
      linarith)
  refine ⟨v, fun ω => h1 ω _ _ _ rfl (supported_mat _ _ 1 zero_le_one), ?_⟩
  rwa [dcovPop_coins] at h2

/-- 1000 observations of two equal coins. -/
example : ∃ v : (Fin 1000 → (Fin 1 → ℝ) × (Fin 1 → ℝ)) → ℝ,
    (∀ ω, (uDistanceCovarianceSqr stdEnv (npMat fun i => (ω i).1) (npMat fun i => (ω i).2) ⟨1, .enum .naive, .auto⟩).out
      = .ok (.fin (v ω))) ∧
    (Measure.pi fun _ : Fin 1000 => coins).real {ω | 1 ≤ |v ω - 1 / 4|} ≤ 2 * Real.exp (-13) := by
  have hd : ∀ z ∈ ({(![0], ![0]), (![1], ![1])} : Set ((Fin 1 → ℝ) × (Fin 1 → ℝ))),
      ∀ z' ∈ ({(![0], ![0]), (![1], ![1])} : Set ((Fin 1 → ℝ) × (Fin 1 → ℝ))),
      Spec.dist 1 z.1 z'.1 ≤ 1 ∧ Spec.dist 1 z.2 z'.2 ≤ 1 := by
    rintro z (rfl | rfl) z' (rfl | rfl) <;> simp [dist_one]
  obtain ⟨v, h1, h2⟩ := C111_u_covariance (env := stdEnv) (A := 1) (B := 1) one_pos (by norm_num)
    (exists_observations coins 1000) (fair_values _ _) (fun z hz z' hz' => (hd z hz z' hz').1)
    (fun z hz z' hz' => (hd z hz z' hz').2)
  refine ⟨v, fun ω => h1 ω _ _ _ rfl (supported_mat _ _ 1 zero_le_one), ?_⟩
  have h := h2 1 zero_le_one
  rw [dcovPop_coins] at h
  refine h.trans (mul_le_mul_of_nonneg_left (Real.exp_le_exp.2 ?_) (by norm_num))
  norm_num

/-- 1000 observations of a coin with the values 0 and 1 and 1000 of a coin with the values 0 and 2. -/
example : ∃ v w : (Fin 1000 → Fin 1 → ℝ) × (Fin 1000 → Fin 1 → ℝ) → ℝ,
    (∀ ω, (energyDistance stdEnv (npMat fun i => ω.1 i) (npMat fun i => ω.2 i) ⟨1, none, .enum .u⟩).out.map Scalar.val
      = .ok (.fin (v ω))) ∧
    (∀ ω, (energyDistance stdEnv (npMat fun i => ω.1 i) (npMat fun i => ω.2 i) ⟨1, none, .enum .v⟩).out.map Scalar.val
      = .ok (.fin (w ω))) ∧
    ((Measure.pi fun _ : Fin 1000 => coin 1).prod (Measure.pi fun _ : Fin 1000 => coin 2)).real
      {ω | 1 ≤ |v ω - 1 / 2|} ≤ 2 * Real.exp (-15) ∧
    ((Measure.pi fun _ : Fin 1000 => coin 1).prod (Measure.pi fun _ : Fin 1000 => coin 2)).real
      {ω | 1 + 1 / 250 ≤ |w ω - 1 / 2|} ≤ 2 * Real.exp (-15) := by
  obtain ⟨hX, hY, -⟩ := exists_observations_two (coin 1) (coin 2) 1000 1000
  have hi : IndepFun (fun (ω : (Fin 1000 → Fin 1 → ℝ) × (Fin 1000 → Fin 1 → ℝ)) i => ω.1 i) (fun ω j => ω.2 j)
      ((Measure.pi fun _ : Fin 1000 => coin 1).prod (Measure.pi fun _ : Fin 1000 => coin 2)) :=
    indepFun_prod (X := fun x : Fin 1000 → Fin 1 → ℝ => x) (Y := fun y : Fin 1000 → Fin 1 → ℝ => y) measurable_id measurable_id
  have hd : ∀ z ∈ ({![0], ![1], ![2]} : Set (Fin 1 → ℝ)), ∀ z' ∈ ({![0], ![1], ![2]} : Set (Fin 1 → ℝ)),
      Spec.dist 1 z z' ≤ 2 := by
    rintro z (rfl | rfl | rfl) z' (rfl | rfl | rfl) <;> rw [dist_one] <;> norm_num
  have k1 : ∀ᵐ x ∂(coin 1), x ∈ ({![0], ![1], ![2]} : Set (Fin 1 → ℝ)) :=
    (fair_values _ _).mono fun x hx => by
      rcases hx with rfl | rfl <;> simp
  have k2 : ∀ᵐ x ∂(coin 2), x ∈ ({![0], ![1], ![2]} : Set (Fin 1 → ℝ)) :=
    (fair_values _ _).mono fun x hx => by
      rcases hx with rfl | rfl <;> simp
  obtain ⟨v, h1, h2⟩ := C111_energy_u (env := stdEnv) (α := 1) one_pos (by norm_num) (by norm_num) hX hY hi k1 k2 hd
  obtain ⟨w, h3, h4⟩ := C111_energy_v (env := stdEnv) (α := 1) one_pos (by norm_num) (by norm_num) hX hY hi k1 k2 hd
  refine ⟨v, w, fun ω => h1 ω _ _ _ rfl rfl (energyCall_mat _ _ (by norm_num) _),
    fun ω => h3 ω _ _ _ rfl rfl (energyCall_mat _ _ (by norm_num) _), ?_, ?_⟩
  · have h := h2 1 zero_le_one
    rw [energyPop_coin] at h
    refine h.trans (mul_le_mul_of_nonneg_left (Real.exp_le_exp.2 ?_) (by norm_num))
    norm_num
  · have h := h4 1 zero_le_one
    rw [energyPop_coin] at h
    have e : (1 : ℝ) + 2 / ((1000 : ℕ) : ℝ) + 2 / ((1000 : ℕ) : ℝ) = 1 + 1 / 250 := by norm_num
    rw [e] at h
    refine h.trans (mul_le_mul_of_nonneg_left (Real.exp_le_exp.2 ?_) (by norm_num))
    norm_num

end Dcor.Props

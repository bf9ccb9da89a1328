/-
Property C117: a number of observations that is enough for the permutation tests to find a dependence or a difference.
-/
import Verif.Props.Concentration
import Verif.Props.Consistency

namespace Dcor.Props

open Finset MeasureTheory ProbabilityTheory Filter

variable {env : Env} {nJobs : Option ℤ} {p q n m N : ℕ} {α A B D δ : ℝ} {Ω : Type*} {mΩ : MeasurableSpace Ω} {P : Measure Ω}
  [IsProbabilityMeasure P]

/-- The sum of distances that are at most `A`. -/
private theorem sum_dist_le (hα : 0 < α) {X : Fin n → Fin p → ℝ} (h : ∀ i j, Spec.dist α (X i) (X j) ≤ A) :
    ∑ i, ∑ j, Spec.dist α (X i) (X j) ≤ n * (n - 1) * A := by
  have e : ∀ i, ∑ j, Spec.dist α (X i) (X j) ≤ (n - 1) * A := by
    intro i
    rw [← Finset.add_sum_erase _ _ (mem_univ i), Spec.dist_self hα.ne', zero_add]
    refine (Finset.sum_le_card_nsmul _ _ A fun j _ => h i j).trans (le_of_eq ?_)
    rw [card_erase_of_mem (mem_univ i), card_univ, Fintype.card_fin, nsmul_eq_mul, Nat.cast_sub (by have := i.2; omega),
      Nat.cast_one]
  refine (Finset.sum_le_card_nsmul _ _ _ fun i _ => e i).trans (le_of_eq ?_)
  rw [card_univ, Fintype.card_fin, nsmul_eq_mul, mul_assoc]

private theorem pairMean_le (hn : 2 ≤ n) {X : Fin n → Fin p → ℝ} (h : ∀ i j, Spec.dist α (X i) (X j) ≤ A) :
    Spec.pairMean α X ≤ A := by
  have h2 : (2 : ℝ) ≤ n := by exact_mod_cast hn
  unfold Spec.pairMean
  rw [div_le_iff₀ (mul_pos (by linarith) (by linarith))]
  have e : ∀ i, ∑ j ∈ univ.filter (· ≠ i), Spec.dist α (X i) (X j) ≤ (n - 1) * A := by
    intro i
    refine (Finset.sum_le_card_nsmul _ _ A fun j _ => h i j).trans (le_of_eq ?_)
    rw [filter_ne' univ i, card_erase_of_mem (mem_univ i), card_univ, Fintype.card_fin, nsmul_eq_mul,
      Nat.cast_sub (by omega), Nat.cast_one]
  refine (Finset.sum_le_card_nsmul _ _ _ fun i _ => e i).trans (le_of_eq ?_)
  rw [card_univ, Fintype.card_fin, nsmul_eq_mul]
  ring

section Dcov

variable {Z : Fin n → Ω → (Fin p → ℝ) × (Fin q → ℝ)} {μ : Measure ((Fin p → ℝ) × (Fin q → ℝ))} [IsProbabilityMeasure μ]
  {K : Set ((Fin p → ℝ) × (Fin q → ℝ))}

/-- C117: let the distances of the values be at most `A` and `B`, and let `V` be the distance covariance of the distribution. If
`n V ≥ 40 A B` and `n V ^ 2 ≥ 1152 (A B) ^ 2 log (2 / δ)`, then with a probability of at least `1 - δ` the observations are such
that `distance_covariance_test` with `N` resamples returns the smallest p-value `1 / (N + 1)`, except for a fraction of at most
`2 N A B / (n V)` of the permutations. -/
theorem C117_dcov_test (hα : 0 < α) (hα2 : α ≤ 2) (hj : nJobs ≠ some 0) (hn : 2 ≤ n) (hZ : Spec.Observations P Z μ)
    (hK : ∀ᵐ z ∂μ, z ∈ K) (hA : ∀ z ∈ K, ∀ z' ∈ K, Spec.dist α z.1 z'.1 ≤ A)
    (hB : ∀ z ∈ K, ∀ z' ∈ K, Spec.dist α z.2 z'.2 ≤ B) (hA0 : 0 < A) (hB0 : 0 < B) (hδ : 0 < δ)
    (hV : 0 < Spec.dcovPop α μ) (h1 : 40 * (A * B) ≤ n * Spec.dcovPop α μ)
    (h2 : 1152 * (A * B) ^ 2 * Real.log (2 / δ) ≤ n * Spec.dcovPop α μ ^ 2) :
    ∃ G : Set Ω, 1 - δ ≤ P.real G ∧
      ∀ ω ∈ G, ∀ x y, DcovTestCall x y α (fun i => (Z i ω).1) (fun i => (Z i ω).2) →
      ∃ (T : ℝ) (pv : (Fin N → Equiv.Perm (Fin n)) → ℝ),
        (∀ σ, ∃ s, (distanceCovarianceTest env (Rng.replay σ) x y N α (.gen 0) nJobs).out = .ok (⟨pv σ, .fin T⟩, s)) ∧
        n * Spec.dcovPop α μ / 2 < T ∧
        ((univ.filter fun σ => pv σ ≠ 1 / ((N : ℝ) + 1)).card : ℝ) / n.factorial ^ N
          ≤ 2 * N * (A * B) / (n * Spec.dcovPop α μ) := by
  have hnR : (2 : ℝ) ≤ n := by exact_mod_cast hn
  obtain ⟨v, hv, h⟩ := C111_sample_size (env := stdEnv) (ε := Spec.dcovPop α μ / 2) (n := n) hα hZ hK hA hB hA0 hB0
    (by linarith) hδ (by linarith) (by nlinarith)
  have hin : ∀ᵐ ω ∂P, ∀ i, Z i ω ∈ K := ae_all_iff.2 fun i =>
    ae_of_ae_map (hZ.measurable i).aemeasurable (by rw [hZ.law i]; exact hK)
  refine ⟨{ω | |v ω - Spec.dcovPop α μ| < Spec.dcovPop α μ / 2} ∩ {ω | ∀ i, Z i ω ∈ K}, ?_, ?_⟩
  · refine h.trans (le_of_eq (measureReal_congr ?_))
    filter_upwards [hin] with ω hω
    exact propext ⟨fun a => ⟨a, hω⟩, fun a => a.1⟩
  · rintro ω ⟨hω, hωK⟩ x y hc
    have hω' := abs_lt.1 (show |v ω - Spec.dcovPop α μ| < Spec.dcovPop α μ / 2 from hω)
    have ev : v ω = Spec.dcovSqr (Spec.distMat α fun i => (Z i ω).1) (Spec.distMat α fun i => (Z i ω).2) := by
      have s := supported_mat (fun i => (Z i ω).1) (fun i => (Z i ω).2) α hα.le
      have a := hv ω _ _ _ rfl s
      rw [distanceCovarianceSqr_ok s (by omega)] at a
      exact (FP.fin.inj (Except.ok.inj a)).symm
    obtain ⟨T, pv, a1, -, a3⟩ := C98_dcov_power (env := env) (nJobs := nJobs) (B := N) hc hj hn hα hα2
    have e : T = n * v ω := by
      obtain ⟨s, hs⟩ := a1 fun _ => 1
      rw [distanceCovarianceTest_ok hc hj N] at hs
      have := congrArg (fun r : HypothesisTest × ℕ => r.1.statistic) (Except.ok.inj hs)
      rw [ev]
      exact (FP.fin.inj this).symm
    have hT : n * Spec.dcovPop α μ / 2 < T := by
      rw [e]
      have : Spec.dcovPop α μ / 2 < v ω := by linarith
      nlinarith
    have hV' : 0 < n * Spec.dcovPop α μ := by positivity
    refine ⟨T, pv, a1, hT, (a3 (by linarith)).trans ?_⟩
    have sx := sum_dist_le hα (X := fun i => (Z i ω).1) fun i j => hA _ (hωK i) _ (hωK j)
    have sy := sum_dist_le hα (X := fun i => (Z i ω).2) fun i j => hB _ (hωK i) _ (hωK j)
    have px : 0 ≤ ∑ i, ∑ j, Spec.dist α (Z i ω).1 (Z j ω).1 := sum_nonneg fun i _ => sum_nonneg fun j _ => Spec.dist_nonneg _ _ _
    have py : 0 ≤ ∑ i, ∑ j, Spec.dist α (Z i ω).2 (Z j ω).2 := sum_nonneg fun i _ => sum_nonneg fun j _ => Spec.dist_nonneg _ _ _
    have hn1 : (0 : ℝ) < n - 1 := by linarith
    have hprod : (n : ℝ) / (n - 1) * ((∑ i, ∑ j, Spec.dist α (Z i ω).1 (Z j ω).1) / n ^ 2)
        * ((∑ i, ∑ j, Spec.dist α (Z i ω).2 (Z j ω).2) / n ^ 2) ≤ A * B := by
      calc _ ≤ (n : ℝ) / (n - 1) * ((n * (n - 1) * A) / n ^ 2) * ((n * (n - 1) * B) / n ^ 2) := by
            gcongr
        _ = (n - 1) / n * (A * B) := by
            field_simp
        _ ≤ 1 * (A * B) := by
            refine mul_le_mul_of_nonneg_right ?_ (mul_pos hA0 hB0).le
            rw [div_le_one (by linarith)]
            linarith
        _ = A * B := one_mul _
    calc _ ≤ (N : ℝ) * (A * B / (n * Spec.dcovPop α μ / 2)) := by
          refine mul_le_mul_of_nonneg_left ?_ (Nat.cast_nonneg _)
          exact div_le_div₀ (mul_pos hA0 hB0).le hprod (by linarith) hT.le
      _ = _ := by
          field_simp

end Dcov

section Energy

variable {X : Fin n → Ω → Fin p → ℝ} {Y : Fin m → Ω → Fin p → ℝ} {μ ν : Measure (Fin p → ℝ)} [IsProbabilityMeasure μ]
  [IsProbabilityMeasure ν] {K : Set (Fin p → ℝ)} {o : EnergyOpts}

/-- C117: let the distances of the values be at most `D`, and let `E` be the energy distance of the distributions. With
`h = n m / (n + m)`, if `h E ≥ 4 D` and `h E ^ 2 ≥ 128 D ^ 2 log (2 / δ)`, then with a probability of at least `1 - δ` the samples
are such that `energy_test` (V-statistics) with `N` resamples returns the smallest p-value `1 / (N + 1)`, except for a fraction of
at most `2 N D / (h E)` of the permutations. -/
theorem C117_energy_test (hα : 0 < o.exponent) (hα2 : o.exponent ≤ 2) (hj : nJobs ≠ some 0) (hs : o.stat.resolve env = .ok .v)
    (hn : 1 < n) (hm : 1 < m) (hX : Spec.Observations P X μ) (hY : Spec.Observations P Y ν)
    (hi : IndepFun (fun ω i => X i ω) (fun ω j => Y j ω) P) (hμ : ∀ᵐ x ∂μ, x ∈ K) (hν : ∀ᵐ y ∂ν, y ∈ K)
    (hD : ∀ z ∈ K, ∀ z' ∈ K, Spec.dist o.exponent z z' ≤ D) (hD0 : 0 < D) (hδ : 0 < δ) (hE : 0 < Spec.energyPop o.exponent μ ν)
    (h1 : 4 * D ≤ (n : ℝ) * m / (n + m) * Spec.energyPop o.exponent μ ν)
    (h2 : 128 * D ^ 2 * Real.log (2 / δ) ≤ (n : ℝ) * m / (n + m) * Spec.energyPop o.exponent μ ν ^ 2) :
    ∃ G : Set Ω, 1 - δ ≤ P.real G ∧
      ∀ ω ∈ G, ∀ A : Fin 2 → Arr, EnergyTestCall A o (Spec.pair (fun i => X i ω) fun i => Y i ω) →
      ∃ (T : ℝ) (pv : (Fin N → Equiv.Perm (Fin (∑ a, ![n, m] a))) → ℝ),
        (∀ σ, ∃ s, (energyTest env (Rng.replay σ) (List.ofFn A) N o (.gen 0) nJobs).out = .ok (⟨pv σ, .fin T⟩, s)) ∧
        (n : ℝ) * m / (n + m) * Spec.energyPop o.exponent μ ν / 2 < T ∧
        ((univ.filter fun σ => pv σ ≠ 1 / ((N : ℝ) + 1)).card : ℝ) / (n + m).factorial ^ N
          ≤ 2 * N * D / ((n : ℝ) * m / (n + m) * Spec.energyPop o.exponent μ ν) := by
  have n0 : (0 : ℝ) < n := by exact_mod_cast (by omega : 0 < n)
  have m0 : (0 : ℝ) < m := by exact_mod_cast (by omega : 0 < m)
  obtain ⟨h, hh⟩ : ∃ h : ℝ, h = (n : ℝ) * m / (n + m) := ⟨_, rfl⟩
  have h0 : 0 < h := by
    rw [hh]
    positivity
  obtain ⟨E, hEE⟩ : ∃ E, E = Spec.energyPop o.exponent μ ν := ⟨_, rfl⟩
  rw [← hh, ← hEE] at h1 h2 ⊢
  rw [← hEE] at hE
  obtain ⟨v, hv, hb⟩ := C111_energy_v (env := stdEnv) hα hn hm hX hY hi hμ hν hD
  have hin : ∀ᵐ ω ∂P, (∀ i, X i ω ∈ K) ∧ ∀ i, Y i ω ∈ K := by
    refine (ae_all_iff.2 fun i => ?_).and (ae_all_iff.2 fun i => ?_)
    · exact ae_of_ae_map (hX.measurable i).aemeasurable (by rw [hX.law i]; exact hμ)
    · exact ae_of_ae_map (hY.measurable i).aemeasurable (by rw [hY.law i]; exact hν)
  have eD : D / n + D / m = D / h := by
    rw [hh]
    field_simp
    ring
  have hDh : D / h ≤ E / 4 := by
    rw [div_le_div_iff₀ h0 (by norm_num)]
    linarith
  have b : P.real {ω | E / 2 ≤ |v ω - E|} ≤ δ := by
    have hb := hb (E / 4) (by linarith)
    rw [← hEE] at hb
    refine (measureReal_mono fun ω hω => ?_).trans (hb.trans ?_)
    · change E / 4 + D / n + D / m ≤ _
      change E / 2 ≤ _ at hω
      linarith
    · have e : -((n : ℝ) * m * (E / 4) ^ 2) / (8 * (n + m) * D ^ 2) = -(h * E ^ 2) / (128 * D ^ 2) := by
        rw [hh]
        field_simp
        ring
      have : -((n : ℝ) * m * (E / 4) ^ 2) / (8 * (n + m) * D ^ 2) ≤ Real.log (δ / 2) := by
        rw [e, div_le_iff₀ (by positivity)]
        have e : Real.log (2 / δ) = -Real.log (δ / 2) := by rw [← Real.log_inv, inv_div]
        rw [e] at h2
        linarith
      have := Real.exp_le_exp.2 this
      rw [Real.exp_log (by linarith)] at this
      linarith
  have hc1 : (1 : ℝ) ≤ P.real {ω | E / 2 ≤ |v ω - E|} + P.real {ω | |v ω - E| < E / 2} := by
    rw [← probReal_univ (μ := P)]
    refine le_trans (measureReal_mono fun ω _ => ?_) (measureReal_union_le _ _)
    exact le_or_gt (E / 2) _
  refine ⟨{ω | |v ω - E| < E / 2} ∩ {ω | (∀ i, X i ω ∈ K) ∧ ∀ i, Y i ω ∈ K}, ?_, ?_⟩
  · have : P.real ({ω | |v ω - E| < E / 2} ∩ {ω | (∀ i, X i ω ∈ K) ∧ ∀ i, Y i ω ∈ K})
        = P.real {ω | |v ω - E| < E / 2} := by
      refine measureReal_congr ?_
      filter_upwards [hin] with ω hω
      exact propext ⟨fun a => a.1, fun a => ⟨a, hω⟩⟩
    rw [this]
    linarith
  · rintro ω ⟨hω, hX', hY'⟩ A hc
    have hω' := abs_lt.1 (show |v ω - E| < E / 2 from hω)
    have ev : v ω = Spec.energyV o.exponent (fun i => X i ω) fun i => Y i ω := by
      have s := energyCall_mat (fun i => X i ω) (fun i => Y i ω) hα.le (.enum .v)
      have a := hv ω _ _ ⟨o.exponent, none, .enum .v⟩ rfl rfl s
      rw [energyDistance_v s rfl (by omega) (by omega)] at a
      exact (FP.fin.inj (Except.ok.inj a)).symm
    obtain ⟨T, pv, a1, -, a3⟩ := C98_energy_power (env := env) (nJobs := nJobs) (B := N) hc hs hj hα hα2
    have e : T = h * v ω := by
      obtain ⟨s, hs'⟩ := a1 fun _ => 1
      rw [energyTest_ok hc hs hj N, Spec.energyTestStat_eq .v _ _ fun a => hc.pos a] at hs'
      have := congrArg (fun r : HypothesisTest × ℕ => r.1.statistic) (Except.ok.inj hs')
      rw [ev, ← FP.fin.inj this, hh]
      simp [Spec.energyTestVal, Fin.sum_univ_two, sum_filter, Spec.energyVal, Spec.pair]
      exact Or.inl rfl
    have hT : h * E / 2 < T := by
      rw [e]
      have : E / 2 < v ω := by linarith
      nlinarith
    have hsz : (∑ a, ![n, m] a) = n + m := by simp
    refine ⟨T, pv, a1, hT, ?_⟩
    have a4 := a3 (by have := mul_pos h0 hE; linarith)
    have hf : ((∑ a, ![n, m] a).factorial : ℝ) = (n + m).factorial := by rw [hsz]
    rw [hf] at a4
    refine a4.trans ?_
    have hp : Spec.pairMean o.exponent (Spec.pooled (Spec.pair (fun i => X i ω) fun i => Y i ω)) ≤ D := by
      refine pairMean_le (n := ∑ a, ![n, m] a) (by rw [hsz]; omega) fun i j => hD _ ?_ _ ?_
      all_goals
        unfold Spec.pooled
        generalize finSigmaFinEquiv.symm _ = c
        obtain ⟨a, b⟩ := c
        fin_cases a
        · exact hX' b
        · exact hY' b
    calc _ ≤ (N : ℝ) * (D / (h * E / 2)) := by
          refine mul_le_mul_of_nonneg_left ?_ (Nat.cast_nonneg _)
          refine div_le_div₀ hD0.le ?_ (by have := mul_pos h0 hE; linarith) hT.le
          norm_num
          exact hp
      _ = _ := by
          field_simp

end Energy

/-! ### Examples -/

/-- 60000 observations of two equal coins and 19 resamples: the data are good with a probability of 9/10, and then the p-value is
1/20 for 99% of the permutations. -/
example : ∃ G : Set (Fin 60000 → (Fin 1 → ℝ) × (Fin 1 → ℝ)),
    1 - 1 / 10 ≤ (Measure.pi fun _ : Fin 60000 => coins).real G ∧
    ∀ ω ∈ G, ∃ (T : ℝ) (pv : (Fin 19 → Equiv.Perm (Fin 60000)) → ℝ),
      (∀ σ, ∃ s, (distanceCovarianceTest stdEnv (Rng.replay σ) (npMat fun i => (ω i).1) (npMat fun i => (ω i).2) (19 : ℕ) 1
        (.gen 0) none).out = .ok (⟨pv σ, .fin T⟩, s)) ∧
      ((univ.filter fun σ => pv σ ≠ 1 / 20).card : ℝ) / (60000 : ℕ).factorial ^ 19 ≤ 1 / 100 := by
  have hd : ∀ z ∈ ({(![0], ![0]), (![1], ![1])} : Set ((Fin 1 → ℝ) × (Fin 1 → ℝ))),
      ∀ z' ∈ ({(![0], ![0]), (![1], ![1])} : Set ((Fin 1 → ℝ) × (Fin 1 → ℝ))),
      Spec.dist 1 z.1 z'.1 ≤ 1 ∧ Spec.dist 1 z.2 z'.2 ≤ 1 := by
    rintro z (rfl | rfl) z' (rfl | rfl) <;> simp [dist_one]
  obtain ⟨G, hG, h⟩ := C117_dcov_test (env := stdEnv) (nJobs := none) (N := 19) (A := 1) (B := 1) (δ := 1 / 10) one_pos one_le_two
    (by simp) (by norm_num) (exists_observations coins 60000) (fair_values _ _) (fun z hz z' hz' => (hd z hz z' hz').1)
    (fun z hz z' hz' => (hd z hz z' hz').2) one_pos one_pos (by norm_num) (by rw [dcovPop_coins]; norm_num)
    (by rw [dcovPop_coins]; norm_num) (by
      have e : (2 : ℝ) / (1 / 10) = 20 := by norm_num
      rw [e, dcovPop_coins]
      have := log_twenty
      norm_num
      linarith)
  refine ⟨G, hG, fun ω hω => ?_⟩
  obtain ⟨T, pv, a1, -, a2⟩ := h ω hω _ _ (dcovTestCall_mat (by norm_num) _ _ zero_le_one)
  refine ⟨T, pv, a1, ?_⟩
  rw [dcovPop_coins] at a2
  have e : (((19 : ℕ) : ℝ) + 1) = 20 := by norm_num
  rw [e] at a2
  refine a2.trans ?_
  norm_num

/-- 100000 observations of a coin with the values 0 and 1 and 100000 of a coin with the values 0 and 2. -/
example := C117_energy_test (env := stdEnv) (nJobs := none) (N := 19) (o := ⟨1, none, .enum .v⟩) (D := 2) (δ := 1 / 10)
  (X := fun (i : Fin 100000) (ω : (Fin 100000 → Fin 1 → ℝ) × (Fin 100000 → Fin 1 → ℝ)) => ω.1 i)
  (Y := fun (i : Fin 100000) (ω : (Fin 100000 → Fin 1 → ℝ) × (Fin 100000 → Fin 1 → ℝ)) => ω.2 i)
  (K := {![0], ![1], ![2]}) one_pos one_le_two (by simp) rfl (by norm_num) (by norm_num)
  (exists_observations_two (coin 1) (coin 2) 100000 100000).1 (exists_observations_two (coin 1) (coin 2) 100000 100000).2.1
  (indepFun_prod (X := fun x : Fin 100000 → Fin 1 → ℝ => x) (Y := fun y : Fin 100000 → Fin 1 → ℝ => y) measurable_id measurable_id)
  ((fair_values _ _).mono fun x hx => by rcases hx with rfl | rfl <;> simp)
  ((fair_values _ _).mono fun x hx => by rcases hx with rfl | rfl <;> simp)
  (by rintro z (rfl | rfl | rfl) z' (rfl | rfl | rfl) <;> rw [dist_one] <;> norm_num) two_pos (by norm_num)
  (by rw [energyPop_coin]; norm_num) (by rw [energyPop_coin]; norm_num) (by
    have e : (2 : ℝ) / (1 / 10) = 20 := by norm_num
    rw [e, energyPop_coin]
    have := log_twenty
    norm_num
    linarith)

end Dcor.Props

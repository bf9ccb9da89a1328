/-
Property C103: variance of the bias-corrected statistics over all relabellings of a sample.
-/
import Verif.Proofs.PermVariance
import Verif.Proofs.Partial
import Verif.Props.Homogeneity
import Verif.Props.Partial

namespace Dcor.Props

open Finset

variable {env : Env} {nJobs : Option ℤ} {n p q r B : ℕ} {α : ℝ} {o : Opts} {x y z : Arr}

private theorem card_perm_real (n : ℕ) : (Fintype.card (Equiv.Perm (Fin n)) : ℝ) = n.factorial := by
  rw [Fintype.card_perm, Fintype.card_fin]

private theorem uCentre_dist (hn : 3 < n) (hα : α ≠ 0) (X : Fin n → Fin p → ℝ) :
    Spec.Centred (Spec.uCentre (Spec.distMat α X)) :=
  Spec.uCentre_centred (by omega) (Spec.distMat_symm _ _) (Spec.distMat_diag hα X)

private theorem uDcovSqr_relabelled (X : Fin n → Fin p → ℝ) (Y : Fin n → Fin q → ℝ) (π : Equiv.Perm (Fin n)) :
    Spec.uDcovSqr (Spec.distMat α fun i => X (π i)) (Spec.distMat α Y)
      = Spec.uInner (fun i j => Spec.uCentre (Spec.distMat α X) (π i) (π j)) (Spec.uCentre (Spec.distMat α Y)) := by
  have h : Spec.distMat α (fun i => X (π i)) = Spec.reorder π (Spec.distMat α X) := rfl
  rw [Spec.uDcovSqr, h, Spec.uCentre_reorder]
  rfl

private theorem uDcovSqr_self_nonneg (hn : 3 < n) (a : RMat n) : 0 ≤ Spec.uDcovSqr a a := by
  rw [Spec.uDcovSqr_eq_uIp]
  exact uIp_self_nonneg hn _

private theorem partialDcov_self_nonneg (hn : 3 < n) (X : Fin n → Fin p → ℝ) (Z : Fin n → Fin r → ℝ) :
    0 ≤ Spec.partialDcov X X Z := by
  unfold Spec.partialDcov
  rw [Spec.uInner_eq_uIp fun i => by rw [show Spec.uResidual (Spec.uMat Z) (Spec.uMat X) i i = 0 from
    residualMat_diag Z X i, mul_zero]]
  exact uIp_self_nonneg hn _

/-! ### Statistics -/

/-- C103: over all relabellings of the first sample the average of `u_distance_covariance_sqr` is zero and the average
of its square is `2 / (n (n - 3))` times the product of the bias-corrected distance variances of the two samples. -/
theorem C103_u_covariance {X : Fin n → Fin p → ℝ} {Y : Fin n → Fin q → ℝ} {xs : Equiv.Perm (Fin n) → Arr}
    (h : ∀ π, Supported env (xs π) y o (fun i => X (π i)) Y) (hx : Supported env x x o X X)
    (hy : Supported env y y o Y Y) (hn : 3 < n) (he : o.exponent ≠ 0) :
    ∃ (v : Equiv.Perm (Fin n) → ℝ) (vx vy : ℝ),
      (∀ π, (uDistanceCovarianceSqr env (xs π) y o).out = .ok (.fin (v π))) ∧
      (uDistanceCovarianceSqr env x x o).out = .ok (.fin vx) ∧
      (uDistanceCovarianceSqr env y y o).out = .ok (.fin vy) ∧
      (∑ π, v π) / n.factorial = 0 ∧ (∑ π, v π ^ 2) / n.factorial = 2 / (n * (n - 3)) * (vx * vy) := by
  obtain ⟨h1, h2⟩ := Spec.uInner_perm hn (uCentre_dist hn he X) (uCentre_dist hn he Y)
  refine ⟨_, _, _, fun π => uDistanceCovarianceSqr_ok (h π) hn he, uDistanceCovarianceSqr_ok hx hn he,
    uDistanceCovarianceSqr_ok hy hn he, ?_, ?_⟩
  · simp only [uDcovSqr_relabelled, h1, zero_div]
  · simp only [uDcovSqr_relabelled, h2]
    rfl

/-- C103: over all relabellings of the first sample the average of `u_distance_correlation_sqr` is zero and, if neither
sample has zero bias-corrected distance variance, the average of its square is `2 / (n (n - 3))`, whatever the data. At
most `1 / (1 + n (n - 3) / 2 * t ^ 2)` of the relabellings give `t > 0` or more. -/
theorem C103_u_correlation {X : Fin n → Fin p → ℝ} {Y : Fin n → Fin q → ℝ} {xs : Equiv.Perm (Fin n) → Arr}
    (h : ∀ π, Supported env (xs π) y o (fun i => X (π i)) Y) (hx : Supported env x x o X X)
    (hy : Supported env y y o Y Y) (hn : 3 < n) (he : o.exponent ≠ 0) :
    ∃ (v : Equiv.Perm (Fin n) → ℝ) (vx vy : ℝ),
      (∀ π, (uDistanceCorrelationSqr env (xs π) y o).out = .ok (.fin (v π))) ∧
      (uDistanceCovarianceSqr env x x o).out = .ok (.fin vx) ∧
      (uDistanceCovarianceSqr env y y o).out = .ok (.fin vy) ∧
      (∑ π, v π) / n.factorial = 0 ∧
      (vx ≠ 0 → vy ≠ 0 → (∑ π, v π ^ 2) / n.factorial = 2 / (n * (n - 3))) ∧
      ∀ t : ℝ, 0 < t → ((univ.filter fun π => t ≤ v π).card : ℝ) / n.factorial
        ≤ 1 / (1 + n * (n - 3) / 2 * t ^ 2) := by
  obtain ⟨h1, h2⟩ := Spec.uInner_perm hn (uCentre_dist hn he X) (uCentre_dist hn he Y)
  have hn' : (3 : ℝ) < n := by exact_mod_cast hn
  have hn3 : (0 : ℝ) < (n : ℝ) - 3 := by linarith
  have hn0 : (0 : ℝ) < n := by linarith
  have hf : (0 : ℝ) < n.factorial := by positivity
  obtain ⟨vx, hvx⟩ : ∃ v, v = Spec.uDcovSqr (Spec.distMat o.exponent X) (Spec.distMat o.exponent X) := ⟨_, rfl⟩
  obtain ⟨vy, hvy⟩ : ∃ v, v = Spec.uDcovSqr (Spec.distMat o.exponent Y) (Spec.distMat o.exponent Y) := ⟨_, rfl⟩
  obtain ⟨c, hc⟩ : ∃ c : Equiv.Perm (Fin n) → ℝ, c = fun π =>
    Spec.uDcovSqr (Spec.distMat o.exponent fun i => X (π i)) (Spec.distMat o.exponent Y) := ⟨_, rfl⟩
  obtain ⟨v, hv⟩ : ∃ v : Equiv.Perm (Fin n) → ℝ, v = fun π => Spec.ratio (c π) vx vy := ⟨_, rfl⟩
  have hself (π : Equiv.Perm (Fin n)) : Spec.uDcovSqr (Spec.distMat o.exponent fun i => X (π i))
      (Spec.distMat o.exponent fun i => X (π i)) = vx := by
    have e : Spec.distMat o.exponent (fun i => X (π i)) = Spec.reorder π (Spec.distMat o.exponent X) := rfl
    rw [e, Spec.uDcovSqr_reorder, hvx]
  have hc1 : ∑ π, c π = 0 := by
    rw [hc, ← h1]
    exact sum_congr rfl fun π _ => uDcovSqr_relabelled X Y π
  have hc2 : (∑ π, c π ^ 2) / n.factorial = 2 / (n * (n - 3)) * (vx * vy) := by
    rw [hvx, hvy]
    refine Eq.trans ?_ h2
    congr 1
    refine sum_congr rfl fun π _ => ?_
    rw [hc]
    beta_reduce
    rw [uDcovSqr_relabelled X Y π]
  have hvv : 0 ≤ vx * vy := by
    rw [hvx, hvy]
    exact mul_nonneg (uDcovSqr_self_nonneg hn _) (uDcovSqr_self_nonneg hn _)
  have hmean : ∑ π, v π = 0 := by
    by_cases h0 : vx * vy = 0
    · simp [hv, Spec.ratio, h0]
    · simp only [hv, Spec.ratio, h0, if_false]
      rw [← sum_div, hc1, zero_div]
  have hvar : vx * vy ≠ 0 → (∑ π, v π ^ 2) / n.factorial = 2 / (n * (n - 3)) := by
    intro h0
    have e (π : Equiv.Perm (Fin n)) : v π ^ 2 = c π ^ 2 / (vx * vy) := by
      rw [hv]
      simp only [Spec.ratio, h0, if_false, div_pow]
      rw [Real.sq_sqrt (abs_nonneg _), abs_of_nonneg hvv]
    rw [sum_congr rfl fun π _ => e π, ← sum_div, div_right_comm, hc2, mul_div_cancel_right₀ _ h0]
  refine ⟨v, vx, vy, fun π => ?_, ?_, ?_, by rw [hmean, zero_div], fun hx0 hy0 => hvar (mul_ne_zero hx0 hy0), ?_⟩
  · rw [uDistanceCorrelationSqr_ok (h π) hn he, hv, hc]
    beta_reduce
    rw [Spec.uDcorSqr, hself, ← hvy]
  · rw [hvx]
    exact uDistanceCovarianceSqr_ok hx hn he
  · rw [hvy]
    exact uDistanceCovarianceSqr_ok hy hn he
  · intro t ht
    by_cases h0 : vx * vy = 0
    · have : (univ.filter fun π => t ≤ v π) = ∅ := by
        refine filter_eq_empty_iff.2 fun π _ => ?_
        simp only [hv, Spec.ratio, h0, if_true]
        exact not_le.2 ht
      rw [this, card_empty, Nat.cast_zero, zero_div]
      positivity
    · rw [div_le_iff₀ hf, ← card_perm_real]
      have := card_above_le_of_variance (V := 2 / (n * (n - 3))) ht hmean (by rw [card_perm_real]; exact hvar h0)
      have e : 1 + n * (n - 3) / 2 * t ^ 2 = 1 + t ^ 2 / (2 / (n * (n - 3) : ℝ)) := by
        field_simp
      rw [e]
      convert this

/-! ### Test -/

/-- C103: power of `partial_distance_covariance_test`. Let `T` be the statistic and `Tx`, `Ty` those of the calls with
`(x, x, z)` and `(y, y, z)`. If `T > 0`, the p-value averaged over all sequences of permutations is at most
`(1 + B * c) / (B + 1)`, and at least the part `1 - B * c` of the sequences gives `1 / (B + 1)`, the smallest p-value,
where `c = 1 / (1 + n (n - 3) / 2 * T ^ 2 / (Tx * Ty))`. If `T < 0`, at least that part gives the p-value 1. -/
theorem C103_partial_power {X : Fin n → Fin p → ℝ} {Y : Fin n → Fin q → ℝ} {Z : Fin n → Fin r → ℝ}
    (hc : PartialTestCall x y z α X Y Z) (hj : nJobs ≠ some 0) (hα : α ≠ 0) :
    ∃ (T Tx Ty : ℝ) (pv : (Fin B → Equiv.Perm (Fin n)) → ℝ),
      (∀ σ, ∃ s, (partialDistanceCovarianceTest env (Rng.replay σ) x y z B α (.gen 0) nJobs).out
        = .ok (⟨pv σ, .fin T⟩, s)) ∧
      (∀ (R : Type) (rng : Rng R) rs, ∃ pv' s, (partialDistanceCovarianceTest env rng x x z B α rs nJobs).out
        = .ok (⟨pv', .fin Tx⟩, s)) ∧
      (∀ (R : Type) (rng : Rng R) rs, ∃ pv' s, (partialDistanceCovarianceTest env rng y y z B α rs nJobs).out
        = .ok (⟨pv', .fin Ty⟩, s)) ∧
      (0 < T → (∑ σ, pv σ) / n.factorial ^ B
        ≤ (1 + B * (1 / (1 + n * (n - 3) / 2 * (T ^ 2 / (Tx * Ty))))) / (B + 1)) ∧
      (0 < T → ((univ.filter fun σ => pv σ ≠ 1 / ((B : ℝ) + 1)).card : ℝ) / n.factorial ^ B
        ≤ B * (1 / (1 + n * (n - 3) / 2 * (T ^ 2 / (Tx * Ty))))) ∧
      (T < 0 → ((univ.filter fun σ => pv σ ≠ 1).card : ℝ) / n.factorial ^ B
        ≤ B * (1 / (1 + n * (n - 3) / 2 * (T ^ 2 / (Tx * Ty))))) := by
  have hn := hc.hn
  have hn' : (3 : ℝ) < n := by exact_mod_cast hn
  have hn3 : (n : ℝ) - 3 ≠ 0 := by linarith
  have hn0 : (n : ℝ) ≠ 0 := by linarith
  have hcx : PartialTestCall x x z α X X Z := ⟨hn, hc.hx, hc.hx, hc.hz, hc.exponent_nonneg, hc.dx, hc.dx, hc.dz⟩
  have hcy : PartialTestCall y y z α Y Y Z := ⟨hn, hc.hy, hc.hy, hc.hz, hc.exponent_nonneg, hc.dy, hc.dy, hc.dz⟩
  obtain ⟨a, ha⟩ : ∃ a, a = Spec.residualMat α Z X := ⟨_, rfl⟩
  obtain ⟨b, hb⟩ : ∃ b, b = Spec.residualMat α Z Y := ⟨_, rfl⟩
  have hac : Spec.Centred a := by
    rw [ha]
    exact Spec.uResidual_centred (uCentre_dist hn hα X) (uCentre_dist hn hα Z)
  have hbc : Spec.Centred b := by
    rw [hb]
    exact Spec.uResidual_centred (uCentre_dist hn hα Y) (uCentre_dist hn hα Z)
  obtain ⟨h1, h2⟩ := Spec.uInner_perm hn hac hbc
  obtain ⟨t, ht⟩ : ∃ t : Equiv.Perm (Fin n) → ℝ, t = fun π => n * Spec.uInner (fun i j => a (π i) (π j)) b := ⟨_, rfl⟩
  obtain ⟨T, hT⟩ : ∃ T, T = n * Spec.uInner a b := ⟨_, rfl⟩
  obtain ⟨pv, hpv⟩ : ∃ pv : (Fin B → Equiv.Perm (Fin n)) → ℝ, pv = fun σ => Spec.permPvalue (.fin T)
      (fun i => .fin (t (permAt (Rng.replay σ) n 0 i))) B := ⟨_, rfl⟩
  have hpv' : ∀ σ, ∃ f : ℕ → FP ℝ, (∀ i : Fin B, f i = .fin (t (σ i))) ∧ pv σ = Spec.permPvalue (.fin T) f B := by
    intro σ
    refine ⟨fun i => .fin (t (permAt (Rng.replay σ) n 0 i)), fun i => ?_, by rw [hpv]⟩
    beta_reduce
    rw [permAt_replay]
  have hmean : ∑ π, t π = 0 := by rw [ht, ← mul_sum, h1, mul_zero]
  have hvar : (∑ π, t π ^ 2) / Fintype.card (Equiv.Perm (Fin n))
      = n ^ 2 * (2 / (n * (n - 3)) * (Spec.uInner a a * Spec.uInner b b)) := by
    rw [card_perm_real, ← h2, ht]
    simp only [mul_pow]
    rw [← mul_sum, mul_div_assoc]
  have hratio : n * (n - 3) / 2 * (T ^ 2 / (n * Spec.uInner a a * (n * Spec.uInner b b)))
      = T ^ 2 / (n ^ 2 * (2 / (n * (n - 3)) * (Spec.uInner a a * Spec.uInner b b))) := by
    rcases eq_or_ne (Spec.uInner a a) 0 with h0 | h0
    · simp [h0]
    rcases eq_or_ne (Spec.uInner b b) 0 with h0' | h0'
    · simp [h0']
    field_simp
  have hcount : 0 < T → ((univ.filter fun π => T < t π).card : ℝ)
      ≤ 1 / (1 + n * (n - 3) / 2 * (T ^ 2 / (n * Spec.uInner a a * (n * Spec.uInner b b))))
        * Fintype.card (Equiv.Perm (Fin n)) := by
    intro hT0
    rw [hratio]
    exact card_gt_le_of_variance hT0 hmean hvar
  have hcount' : T < 0 → ((univ.filter fun π => t π ≤ T).card : ℝ)
      ≤ 1 / (1 + n * (n - 3) / 2 * (T ^ 2 / (n * Spec.uInner a a * (n * Spec.uInner b b))))
        * Fintype.card (Equiv.Perm (Fin n)) := by
    intro hT0
    rw [hratio]
    exact card_le_le_of_variance hT0 hmean hvar
  refine ⟨T, n * Spec.uInner a a, n * Spec.uInner b b, pv, fun σ => ?_,
    fun _ rng rs => ?_, fun _ rng rs => ?_, fun hT0 => ?_, fun hT0 => ?_, fun hT0 => ?_⟩
  · rw [partialDistanceCovarianceTest_ok hc hj B, hpv, hT, ht, ha, hb]
    exact ⟨_, rfl⟩
  · rw [partialDistanceCovarianceTest_ok hcx hj B, ha]
    exact ⟨_, _, rfl⟩
  · rw [partialDistanceCovarianceTest_ok hcy hj B, hb]
    exact ⟨_, _, rfl⟩
  · rw [← card_perm_real]
    exact average_pvalue_le_of_count hpv' (hcount hT0)
  · rw [← card_perm_real]
    convert not_smallest_le_of_count hpv' (by convert hcount hT0)
  · rw [← card_perm_real]
    convert not_one_le_of_count hpv' (by convert hcount' hT0)

/-- C103: with exponent 1 and a positive `partial_distance_correlation` `ρ` the p-value of
`partial_distance_covariance_test` is the smallest one with a probability of at least
`1 - B / (1 + n (n - 3) / 2 * ρ ^ 2)`. With a negative one it is 1 with at least that probability. -/
theorem C103_partial_correlation {X : Fin n → Fin p → ℝ} {Y : Fin n → Fin q → ℝ} {Z : Fin n → Fin r → ℝ}
    (hc : PartialTestCall x y z 1 X Y Z) (hj : nJobs ≠ some 0) :
    ∃ (T ρ : ℝ) (pv : (Fin B → Equiv.Perm (Fin n)) → ℝ),
      (∀ σ, ∃ s, (partialDistanceCovarianceTest env (Rng.replay σ) x y z B 1 (.gen 0) nJobs).out
        = .ok (⟨pv σ, .fin T⟩, s)) ∧
      (partialDistanceCorrelation env x y z).out = .ok (.fin ρ) ∧
      (0 < ρ → (∑ σ, pv σ) / n.factorial ^ B ≤ (1 + B * (1 / (1 + n * (n - 3) / 2 * ρ ^ 2))) / (B + 1)) ∧
      (0 < ρ → ((univ.filter fun σ => pv σ ≠ 1 / ((B : ℝ) + 1)).card : ℝ) / n.factorial ^ B
        ≤ B * (1 / (1 + n * (n - 3) / 2 * ρ ^ 2))) ∧
      (ρ < 0 → ((univ.filter fun σ => pv σ ≠ 1).card : ℝ) / n.factorial ^ B
        ≤ B * (1 / (1 + n * (n - 3) / 2 * ρ ^ 2))) := by
  have hn := hc.hn
  have hn0 : (0 : ℝ) < n := by
    have : (3 : ℝ) < n := by exact_mod_cast hn
    linarith
  have hcx : PartialTestCall x x z 1 X X Z := ⟨hn, hc.hx, hc.hx, hc.hz, hc.exponent_nonneg, hc.dx, hc.dx, hc.dz⟩
  have hcy : PartialTestCall y y z 1 Y Y Z := ⟨hn, hc.hy, hc.hy, hc.hz, hc.exponent_nonneg, hc.dy, hc.dy, hc.dz⟩
  obtain ⟨T, Tx, Ty, pv, h1, h2, h3, h4, h5, h6⟩ := C103_partial_power (env := env) (B := B) hc hj one_ne_zero
  have eT : T = n * Spec.partialDcov X Y Z := by
    obtain ⟨s, hs⟩ := h1 fun _ => 1
    rw [partialDistanceCovarianceTest_ok hc hj B] at hs
    simp only [Except.ok.injEq, Prod.mk.injEq, HypothesisTest.mk.injEq, FP.fin.injEq] at hs
    exact hs.1.2.symm
  have eTx : Tx = n * Spec.partialDcov X X Z := by
    obtain ⟨_, s, hs⟩ := h2 ℕ shiftRng (.gen 0)
    rw [partialDistanceCovarianceTest_ok hcx hj B] at hs
    simp only [Except.ok.injEq, Prod.mk.injEq, HypothesisTest.mk.injEq, FP.fin.injEq] at hs
    exact hs.1.2.symm
  have eTy : Ty = n * Spec.partialDcov Y Y Z := by
    obtain ⟨_, s, hs⟩ := h3 ℕ shiftRng (.gen 0)
    rw [partialDistanceCovarianceTest_ok hcy hj B] at hs
    simp only [Except.ok.injEq, Prod.mk.injEq, HypothesisTest.mk.injEq, FP.fin.injEq] at hs
    exact hs.1.2.symm
  have hsq : Spec.partialDcor X Y Z ≠ 0 → (0 < T ↔ 0 < Spec.partialDcor X Y Z) ∧
      (T < 0 ↔ Spec.partialDcor X Y Z < 0) ∧ T ^ 2 / (Tx * Ty) = Spec.partialDcor X Y Z ^ 2 := by
    intro hρ
    unfold Spec.partialDcor Spec.ratio at hρ ⊢
    split_ifs at hρ ⊢ with h0
    · exact absurd rfl hρ
    have hs : 0 < Real.sqrt |Spec.partialDcov X X Z * Spec.partialDcov Y Y Z| :=
      Real.sqrt_pos.2 (abs_pos.2 h0)
    have hnn : 0 ≤ Spec.partialDcov X X Z * Spec.partialDcov Y Y Z :=
      mul_nonneg (partialDcov_self_nonneg hn _ _) (partialDcov_self_nonneg hn _ _)
    refine ⟨?_, ?_, ?_⟩
    · rw [eT, div_pos_iff_of_pos_right hs, mul_pos_iff_of_pos_left hn0]
    · rw [eT, div_lt_iff₀ hs, zero_mul]
      exact ⟨fun h => by by_contra h'; nlinarith, fun h => by nlinarith⟩
    rw [div_pow, Real.sq_sqrt (abs_nonneg _), abs_of_nonneg hnn, eT, eTx, eTy]
    have : (n : ℝ) * Spec.partialDcov X X Z * (n * Spec.partialDcov Y Y Z)
        = n ^ 2 * (Spec.partialDcov X X Z * Spec.partialDcov Y Y Z) := by ring
    rw [this]
    field_simp
  refine ⟨T, Spec.partialDcor X Y Z, pv, h1, ?_, fun hρ => ?_, fun hρ => ?_, fun hρ => ?_⟩
  · rw [partialDistanceCorrelation_ok env hn hc.hx hc.hy hc.hz]
    rfl
  · rw [← (hsq hρ.ne').2.2]
    exact h4 ((hsq hρ.ne').1.2 hρ)
  · rw [← (hsq hρ.ne').2.2]
    exact h5 ((hsq hρ.ne').1.2 hρ)
  · rw [← (hsq hρ.ne).2.2]
    exact h6 ((hsq hρ.ne).2.1.2 hρ)

/-! ### Examples -/

private theorem dist_line (u v : Fin 1 → ℝ) : Spec.dist 1 u v = |u 0 - v 0| := by
  simp [Spec.dist, Real.sqrt_sq_eq_abs]

private theorem uMat_exY : Spec.uMat exY 0 1 = 1 / 3 := by
  simp [Spec.uMat, Spec.uCentre, Spec.distMat, Fin.sum_univ_succ, dist_line, exY]
  norm_num [abs_of_nonneg, abs_of_neg]

private def exZ : Fin 4 → Fin 1 → ℝ := fun _ _ => 5

example := C103_u_covariance (env := stdEnv) (x := npMat exX)
  (fun π => supported_mat (fun i => exX (π i)) exY 1 (by norm_num)) (supported_mat exX exX 1 (by norm_num))
  (supported_mat exY exY 1 (by norm_num)) (by norm_num) one_ne_zero
example := C103_u_correlation (env := stdEnv) (x := npMat exX)
  (fun π => supported_mat (fun i => exX (π i)) exY 1 (by norm_num)) (supported_mat exX exX 1 (by norm_num))
  (supported_mat exY exY 1 (by norm_num)) (by norm_num) one_ne_zero
example := C103_partial_power (env := stdEnv) (nJobs := none) (B := 200)
  (partialTestCall_mat (by norm_num) exX exY exX (α := 1) zero_le_one) (by simp) one_ne_zero
example := C103_partial_correlation (env := stdEnv) (nJobs := none) (B := 200)
  (partialTestCall_mat (by norm_num) exY exY exZ (α := 1) zero_le_one) (by simp)
/-- The correlation of the last example is positive. -/
example : (partialDistanceCorrelation stdEnv (npMat exY) (npMat exY) (npMat exZ)).out = .ok (.fin 1) := by
  rw [(C28_self ⟨by norm_num, npMat_holds exY, npMat_holds exY, npMat_holds exZ, Iff.rfl, Iff.rfl⟩).2]
  · rfl
  · rintro ⟨t, ht⟩
    have h := congrFun (congrFun ht 0) 1
    have h0 : Spec.uMat exZ 0 1 = 0 := by
      simp [Spec.uMat, Spec.uCentre, Spec.distMat, dist_line, exZ]
    rw [uMat_exY, h0] at h
    norm_num at h

end Dcor.Props

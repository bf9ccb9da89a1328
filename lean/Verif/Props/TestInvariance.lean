/-
Properties C74 and C75: the permutation tests do not depend on units and coordinates, and perfectly
dependent samples get the smallest p-value.
-/
import Verif.Proofs.TestInvariance
import Verif.Props.Resampling
import Verif.Props.Independence

namespace Dcor.Props

open Finset

variable {S : Type} {env : Env} {rng : Rng S} {rs : RandomLike S} {nJobs : Option ℤ}
  {n p q t p' q' t' : ℕ} {x y z x' y' z' : Arr} {α : ℝ} {X : Fin n → Fin p → ℝ} {Y : Fin n → Fin q → ℝ}
  {Z : Fin n → Fin t → ℝ} {X' : Fin n → Fin p' → ℝ} {Y' : Fin n → Fin q' → ℝ} {Z' : Fin n → Fin t' → ℝ}

/-! ### C74 -/

/-- C74: if all Euclidean distances within `x` are multiplied by `c > 0` and those within `y` by `d > 0`
(change of units, translation, rotation, embedding in another dimension), `distance_covariance_test` with
the same random state returns the same p-value; its statistic is multiplied by `(c d) ^ exponent`. -/
theorem C74_dcov_units {c d : ℝ} (hc : 0 < c) (hd : 0 < d) (h : DcovTestCall x y α X Y)
    (h' : DcovTestCall x' y' α X' Y')
    (hX : ∀ i j, ∑ k, (X' i k - X' j k) ^ 2 = c ^ 2 * ∑ k, (X i k - X j k) ^ 2)
    (hY : ∀ i j, ∑ k, (Y' i k - Y' j k) ^ 2 = d ^ 2 * ∑ k, (Y i k - Y j k) ^ 2)
    (hj : nJobs ≠ some 0) (B : ℕ) :
    ∃ (v pv : ℝ) (s : S),
      (distanceCovarianceTest env rng x y B α rs nJobs).out = .ok (⟨pv, .fin v⟩, s) ∧
      (distanceCovarianceTest env rng x' y' B α rs nJobs).out
        = .ok (⟨pv, .fin ((c * d) ^ α * v)⟩, s) := by
  have hpos : 0 < c ^ α * d ^ α := mul_pos (Real.rpow_pos_of_pos hc α) (Real.rpow_pos_of_pos hd α)
  refine ⟨_, _, _, congrArg PyM.out (distanceCovarianceTest_ok h hj B), ?_⟩
  rw [distanceCovarianceTest_ok h' hj B]
  simp only [Except.ok.injEq, Prod.mk.injEq, and_true]
  rw [Spec.dcovStat_similar hc.le hd.le α hX hY, Real.mul_rpow hc.le hd.le]
  congr 1
  refine Spec.permPvalue_congr fun i _ => ?_
  rw [Spec.dcovStat_similar hc.le hd.le α (fun a b => hX _ _) hY, FP.lt_fin, FP.lt_fin,
    mul_lt_mul_iff_right₀ hpos]

/-- C74 for `partial_distance_covariance_test`: the distances within the three samples may be multiplied
by three factors. -/
theorem C74_partial_units {c d e : ℝ} (hc : 0 < c) (hd : 0 < d) (he : 0 < e)
    (h : PartialTestCall x y z α X Y Z) (h' : PartialTestCall x' y' z' α X' Y' Z')
    (hX : ∀ i j, ∑ k, (X' i k - X' j k) ^ 2 = c ^ 2 * ∑ k, (X i k - X j k) ^ 2)
    (hY : ∀ i j, ∑ k, (Y' i k - Y' j k) ^ 2 = d ^ 2 * ∑ k, (Y i k - Y j k) ^ 2)
    (hZ : ∀ i j, ∑ k, (Z' i k - Z' j k) ^ 2 = e ^ 2 * ∑ k, (Z i k - Z j k) ^ 2)
    (hj : nJobs ≠ some 0) (B : ℕ) :
    ∃ (v pv : ℝ) (s : S),
      (partialDistanceCovarianceTest env rng x y z B α rs nJobs).out = .ok (⟨pv, .fin v⟩, s) ∧
      (partialDistanceCovarianceTest env rng x' y' z' B α rs nJobs).out
        = .ok (⟨pv, .fin ((c * d) ^ α * v)⟩, s) := by
  have hpos : 0 < c ^ α * d ^ α := mul_pos (Real.rpow_pos_of_pos hc α) (Real.rpow_pos_of_pos hd α)
  refine ⟨_, _, _, congrArg PyM.out (partialDistanceCovarianceTest_ok h hj B), ?_⟩
  rw [partialDistanceCovarianceTest_ok h' hj B]
  simp only [Except.ok.injEq, Prod.mk.injEq, and_true]
  rw [Spec.residualMat_similar hc.le he α hX hZ, Spec.residualMat_similar hd.le he α hY hZ,
    Real.mul_rpow hc.le hd.le]
  have key : ∀ a b : RMat n, (n : ℝ) * Spec.uInner (c ^ α • a) (d ^ α • b)
      = c ^ α * d ^ α * (n * Spec.uInner a b) := by
    intro a b
    rw [Spec.uInner_smul_left, Spec.uInner_smul_right]
    ring
  rw [key]
  congr 1
  refine Spec.permPvalue_congr fun i _ => ?_
  have := key (fun k l => Spec.residualMat α Z X (permAt rng n (randomStateInit rng rs) i k)
    (permAt rng n (randomStateInit rng rs) i l)) (Spec.residualMat α Z Y)
  rw [show (fun k l => (c ^ α • Spec.residualMat α Z X) (permAt rng n (randomStateInit rng rs) i k)
    (permAt rng n (randomStateInit rng rs) i l)) = c ^ α • fun k l => Spec.residualMat α Z X
      (permAt rng n (randomStateInit rng rs) i k) (permAt rng n (randomStateInit rng rs) i l) from rfl,
    this, FP.lt_fin, FP.lt_fin, mul_lt_mul_iff_right₀ hpos]

/-- C74 for `energy_test` with any number of samples and both estimators: a transformation of all
observations that multiplies distances by `c > 0` does not change the p-value. -/
theorem C74_energy_units {c : ℝ} (hc : 0 < c) (T : (Fin p → ℝ) → (Fin p' → ℝ))
    (hT : ∀ u v, ∑ k, (T u k - T v k) ^ 2 = c ^ 2 * ∑ k, (u k - v k) ^ 2) {k : ℕ} {A A' : Fin k → Arr}
    {o : EnergyOpts} {sz : Fin k → ℕ} {W : (a : Fin k) → Fin (sz a) → Fin p → ℝ}
    (h : EnergyTestCall A o W) (h' : EnergyTestCall A' o fun a i => T (W a i)) {st : EstStat}
    (hs : o.stat.resolve env = .ok st) (hj : nJobs ≠ some 0) (B : ℕ) :
    ∃ (v : FP ℝ) (pv : ℝ) (s : S),
      (energyTest env rng (List.ofFn A) B o rs nJobs).out = .ok (⟨pv, v⟩, s) ∧
      (energyTest env rng (List.ofFn A') B o rs nJobs).out = .ok (⟨pv, .fin (c ^ o.exponent) * v⟩, s) := by
  refine ⟨_, _, _, congrArg PyM.out (energyTest_ok h hs hj B), ?_⟩
  rw [energyTest_ok h' hs hj B]
  simp only [Except.ok.injEq, Prod.mk.injEq, and_true]
  rw [Spec.energyTestStat_similar hc st o.exponent T hT W]
  congr 1
  refine Spec.permPvalue_congr fun i _ => ?_
  have := Spec.energyTestStat_similar hc st o.exponent T hT
    (Spec.relabel W (permAt rng (∑ a, sz a) (randomStateInit rng rs) i))
  rw [show Spec.relabel (fun a i => T (W a i)) (permAt rng (∑ a, sz a) (randomStateInit rng rs) i)
    = fun a j => T (Spec.relabel W (permAt rng (∑ a, sz a) (randomStateInit rng rs) i) a j) from rfl,
    this, FP.lt_scale (Real.rpow_pos_of_pos hc _)]

/-- Metres replaced by centimetres in `x`, and the sign of `y` changed. -/
example := C74_dcov_units (env := stdEnv) (rng := shiftRng) (rs := .gen 3) (nJobs := some 2) (c := 100)
  (d := 1) (by norm_num) (by norm_num) (dcovTestCall_mat (by norm_num) exX exY (α := 1) zero_le_one)
  (dcovTestCall_mat (by norm_num) (fun i k => 100 * exX i k) (fun i k => -exY i k) zero_le_one)
  (fun i j => by rw [mul_sum]; exact sum_congr rfl fun k _ => by ring)
  (fun i j => by rw [mul_sum]; exact sum_congr rfl fun k _ => by ring) (by simp) 10

example := C74_partial_units (env := stdEnv) (rng := shiftRng) (rs := .gen 3) (nJobs := some 2) (c := 100)
  (d := 1) (e := 2) (by norm_num) (by norm_num) (by norm_num)
  (partialTestCall_mat (by norm_num) exX exY exX (α := 1) zero_le_one)
  (partialTestCall_mat (by norm_num) (fun i k => 100 * exX i k) (fun i k => -exY i k)
    (fun i k => 5 - 2 * exX i k) zero_le_one)
  (fun i j => by rw [mul_sum]; exact sum_congr rfl fun k _ => by ring)
  (fun i j => by rw [mul_sum]; exact sum_congr rfl fun k _ => by ring)
  (fun i j => by rw [mul_sum]; exact sum_congr rfl fun k _ => by ring) (by simp) 10

example := C74_energy_units (env := stdEnv) (rng := shiftRng) (rs := .gen 3) (nJobs := none) (c := 3)
  (by norm_num) (fun u k => 3 * u k + 1)
  (fun u v => by rw [mul_sum]; exact sum_congr rfl fun k _ => by ring)
  (energyTestCall_mat (k := 2) le_rfl (sz := fun _ => 4) (by simp) (fun _ => exX) (zero_le_one' ℝ) (.enum .v))
  (energyTestCall_mat (k := 2) le_rfl (sz := fun _ => 4) (by simp) (fun _ i k => 3 * exX i k + 1)
    (zero_le_one' ℝ) (.enum .v))
  (st := .v) rfl (by simp) 5

/-! ### C75 -/

/-- C75: if the distances within `x` are proportional to those within `y` (for instance `y = x`, or a
change of units), no permutation can give a larger statistic: `distance_covariance_test` returns the
smallest possible p-value, `1 / (B + 1)`, for every random generator. -/
theorem C75_dcov_perfect_dependence {c : ℝ} (hc : 0 ≤ c) (h : DcovTestCall x y α X Y)
    (hd : ∀ i j, Spec.dist α (X i) (X j) = c * Spec.dist α (Y i) (Y j)) (hj : nJobs ≠ some 0) (B : ℕ) :
    ∃ (v : FP ℝ) (s : S), (distanceCovarianceTest env rng x y B α rs nJobs).out
      = .ok (⟨1 / ((B : ℝ) + 1), v⟩, s) := by
  have e := congrArg PyM.out (distanceCovarianceTest_ok (env := env) (rng := rng) (rs := rs) h hj B)
  rw [Spec.permPvalue_min fun i _ => ?_] at e
  · exact ⟨_, _, e⟩
  rw [FP.lt_fin, not_lt]
  unfold Spec.dcovStat
  refine mul_le_mul_of_nonneg_left ?_ (Nat.cast_nonneg n)
  have e' : Spec.distMat α X = c • Spec.distMat α Y := funext fun i => funext fun j => hd i j
  have := Spec.dcovSqr_reorder_le hc (permAt rng n (randomStateInit rng rs) i) (Spec.distMat α X)
    (Spec.distMat α Y) e'
  exact this

/-- C75 for `partial_distance_covariance_test`, whatever the third sample is. -/
theorem C75_partial_perfect_dependence {c : ℝ} (hc : 0 ≤ c) (h : PartialTestCall x y z α X Y Z)
    (hd : ∀ i j, Spec.dist α (X i) (X j) = c * Spec.dist α (Y i) (Y j)) (hj : nJobs ≠ some 0) (B : ℕ) :
    ∃ (v : FP ℝ) (s : S), (partialDistanceCovarianceTest env rng x y z B α rs nJobs).out
      = .ok (⟨1 / ((B : ℝ) + 1), v⟩, s) := by
  have e := congrArg PyM.out (partialDistanceCovarianceTest_ok (env := env) (rng := rng) (rs := rs) h hj B)
  rw [Spec.permPvalue_min fun i _ => ?_] at e
  · exact ⟨_, _, e⟩
  rw [FP.lt_fin, not_lt]
  refine mul_le_mul_of_nonneg_left ?_ (Nat.cast_nonneg n)
  refine Spec.uInner_reorder_le h.hn hc (permAt rng n (randomStateInit rng rs) i) _ _
    (residualMat_diag Z Y) ?_
  have e : Spec.distMat α X = c • Spec.distMat α Y := funext fun i => funext fun j => hd i j
  unfold Spec.residualMat
  rw [e, Spec.uCentre_smul]
  unfold Spec.uResidual
  split_ifs with h0
  · rfl
  · rw [Spec.uInner_smul_left]
    funext i j
    simp only [Pi.smul_apply, smul_eq_mul]
    ring

example := C75_dcov_perfect_dependence (env := stdEnv) (rng := shiftRng) (rs := .gen 3) (nJobs := some 2)
  (c := 1) zero_le_one (dcovTestCall_mat (by norm_num) exX exX (α := 1 / 2) (by norm_num))
  (fun i j => (one_mul _).symm) (by simp) 999
example := C75_partial_perfect_dependence (env := stdEnv) (rng := shiftRng) (rs := .gen 3)
  (nJobs := some 2) (c := 1) zero_le_one
  (partialTestCall_mat (by norm_num) exX exX exY (α := 1 / 2) (by norm_num))
  (fun i j => (one_mul _).symm) (by simp) 999

end Dcor.Props

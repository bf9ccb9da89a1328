/-
C92: range and accuracy of the partial distance correlation computed in `float64`.
-/
import Verif.Proofs.FloatPartialCorr
import Verif.Props.FloatCorr
import Verif.Props.FloatTestsAccuracy

namespace Dcor.Props

open Dcor

variable {sqrt : ℚ → ℚ} {sum : List ℚ → ℚ} {dot : List (ℚ × ℚ) → ℚ} {n p q s : ℕ}

/-! ### The partial correlation can be far outside of its range -/

/-- Six observations. -/
def farX : Fin 6 → Fin 1 → ℚ := fun i _ => (![0, 2, 4, 0, 4, 3] : Fin 6 → ℚ) i

/-- The same observations with small differences. -/
def farY : Fin 6 → Fin 1 → ℚ := fun i _ =>
  (![0, 2, 4, 0, 4, 3] : Fin 6 → ℚ) i + (![0, 2, 3, 1, 3, -2] : Fin 6 → ℚ) i / 2 ^ 25

/-- The same observations with other small differences. -/
def farZ : Fin 6 → Fin 1 → ℚ := fun i _ =>
  (![0, 2, 4, 0, 4, 3] : Fin 6 → ℚ) i + (![1, 1, 2, 2, 1, -1] : Fin 6 → ℚ) i / 2 ^ 25

/-- C92 fails: for `x = [0, 2, 4, 0, 4, 3]` and samples `y` and `z` of `float64` numbers which differ from `x` by a few
multiples of `2 ** -25`, the partial distance correlation is `-5` with the pairwise sums of NumPy and `-5.5` with sums from
left to right, although the correlations are clipped to the interval from -1 to 1. -/
theorem C92_out_of_range :
    (∀ i k, round64 (farX i k) = farX i k ∧ round64 (farY i k) = farY i k ∧ round64 (farZ i k) = farZ i k) ∧
    (binary64 sqrt64 numpySum seqDot64).partialCorrelation farX farY farZ = -5 ∧
    (binary64 sqrt64 seqSum64 seqDot64).partialCorrelation farX farY farZ = -11 / 2 := by
  refine ⟨by decide +kernel, by decide +kernel, by decide +kernel⟩

/-! ### Accuracy -/

/-- The exact partial correlation from the three correlations. -/
theorem partialDcor_value (hn : 3 < n) (X : Fin n → Fin p → ℝ) (Y : Fin n → Fin q → ℝ) (Z : Fin n → Fin s → ℝ)
    (h : Real.sqrt (1 - Spec.uDcorSqr (Spec.distMat 1 X) (Spec.distMat 1 Z) * Spec.uDcorSqr (Spec.distMat 1 X) (Spec.distMat 1 Z))
      * Real.sqrt (1 - Spec.uDcorSqr (Spec.distMat 1 Y) (Spec.distMat 1 Z) * Spec.uDcorSqr (Spec.distMat 1 Y) (Spec.distMat 1 Z)) ≠ 0) :
    Spec.partialDcor X Y Z = (Spec.uDcorSqr (Spec.distMat 1 X) (Spec.distMat 1 Y)
      - Spec.uDcorSqr (Spec.distMat 1 X) (Spec.distMat 1 Z) * Spec.uDcorSqr (Spec.distMat 1 Y) (Spec.distMat 1 Z))
      / (Real.sqrt (1 - Spec.uDcorSqr (Spec.distMat 1 X) (Spec.distMat 1 Z) * Spec.uDcorSqr (Spec.distMat 1 X) (Spec.distMat 1 Z))
      * Real.sqrt (1 - Spec.uDcorSqr (Spec.distMat 1 Y) (Spec.distMat 1 Z) * Spec.uDcorSqr (Spec.distMat 1 Y) (Spec.distMat 1 Z))) := by
  have h1 := partial_formula (uIp_self_nonneg hn (Spec.uMat X)) (uIp_self_nonneg hn (Spec.uMat Y))
    (uIp_self_nonneg hn (Spec.uMat Z)) (uIp_cauchy hn _ _) (uIp_cauchy hn _ _) (uIp_cauchy hn _ _)
  rw [partial_value] at h1
  have h2 := FP.fin.inj h1
  unfold Spec.uDcorSqr at h ⊢
  rw [Spec.uDcovSqr_eq_uIp, Spec.uDcovSqr_eq_uIp, Spec.uDcovSqr_eq_uIp, Spec.uDcovSqr_eq_uIp, Spec.uDcovSqr_eq_uIp] at h
  rw [Spec.uDcovSqr_eq_uIp, Spec.uDcovSqr_eq_uIp, Spec.uDcovSqr_eq_uIp, Spec.uDcovSqr_eq_uIp, Spec.uDcovSqr_eq_uIp,
    Spec.uDcovSqr_eq_uIp]
  unfold Spec.partialDcor
  rw [partialDcov_eq, partialDcov_eq, partialDcov_eq]
  exact (h2.symm.trans (if_neg h))

theorem partialDcor_range (hn : 3 < n) (X : Fin n → Fin p → ℝ) (Y : Fin n → Fin q → ℝ) (Z : Fin n → Fin s → ℝ) :
    |Spec.partialDcor X Y Z| ≤ 1 := by
  refine Spec.abs_ratio_le_one ?_
  unfold Spec.partialDcov
  have hd : ∀ a : RMat n, (∀ i, a i i = 0) → ∀ i, Spec.uResidual (Spec.uMat Z) a i i = 0 := by
    intro a ha i
    unfold Spec.uResidual
    split_ifs <;> simp [ha, Spec.uMat_diag]
  have hX := hd _ (Spec.uMat_diag X)
  have hY := hd _ (Spec.uMat_diag Y)
  rw [Spec.uInner_eq_uIp fun i => by rw [hX, zero_mul], Spec.uInner_eq_uIp fun i => by rw [hX, zero_mul],
    Spec.uInner_eq_uIp fun i => by rw [hY, zero_mul]]
  exact uIp_cauchy hn _ _

/-- The clipped correlation of two samples. -/
theorem clipped_close (h : IsFloat64 sqrt sum dot) (hn : 3 < n) {x : Fin n → Fin p → ℚ} {y : Fin n → Fin q → ℚ} {A B r : ℝ}
    (hA : ∀ i j, realDist x i j ≤ A) (hB : ∀ i j, realDist y i j ≤ B) {m : ℕ} (hp : p ≤ m) (hq : q ≤ m)
    (hK : n ^ 2 + 4 * n + m + 25 ≤ 2 ^ 53) (hr : r ≤ 1 / 4)
    (hx0 : 0 < Spec.uDcovSqr (realDist x) (realDist x)) (hy0 : 0 < Spec.uDcovSqr (realDist y) (realDist y))
    (hx : 216 * (n ^ 2 + 4 * n + m + 25 : ℕ) * A * A / 2 ^ 53 ≤ r * Spec.uDcovSqr (realDist x) (realDist x))
    (hy : 216 * (n ^ 2 + 4 * n + m + 25 : ℕ) * B * B / 2 ^ 53 ≤ r * Spec.uDcovSqr (realDist y) (realDist y)) :
    |((binary64 sqrt sum dot).clippedCorrelation
        ((binary64 sqrt sum dot).uProduct ((binary64 sqrt sum dot).uDistanceMatrix x) ((binary64 sqrt sum dot).uDistanceMatrix y))
        ((binary64 sqrt sum dot).mul
          ((binary64 sqrt sum dot).uProduct ((binary64 sqrt sum dot).uDistanceMatrix x) ((binary64 sqrt sum dot).uDistanceMatrix x))
          ((binary64 sqrt sum dot).uProduct ((binary64 sqrt sum dot).uDistanceMatrix y) ((binary64 sqrt sum dot).uDistanceMatrix y)))
        : ℝ)| ≤ 1 ∧
    |((binary64 sqrt sum dot).clippedCorrelation
        ((binary64 sqrt sum dot).uProduct ((binary64 sqrt sum dot).uDistanceMatrix x) ((binary64 sqrt sum dot).uDistanceMatrix y))
        ((binary64 sqrt sum dot).mul
          ((binary64 sqrt sum dot).uProduct ((binary64 sqrt sum dot).uDistanceMatrix x) ((binary64 sqrt sum dot).uDistanceMatrix x))
          ((binary64 sqrt sum dot).uProduct ((binary64 sqrt sum dot).uDistanceMatrix y) ((binary64 sqrt sum dot).uDistanceMatrix y)))
        : ℝ) - Spec.uDcorSqr (realDist x) (realDist y)| ≤ 3 * r + 6 / 2 ^ 53 := by
  have i0 : Fin n := ⟨0, by omega⟩
  have A0 : 0 ≤ A := (Spec.distMat_diag one_ne_zero _ i0).ge.trans (hA i0 i0)
  have B0 : 0 ≤ B := (Spec.distMat_diag one_ne_zero _ i0).ge.trans (hB i0 i0)
  have r0 : 0 ≤ r := by
    by_contra hneg
    have : 0 ≤ 216 * (n ^ 2 + 4 * n + m + 25 : ℕ) * A * A / (2 : ℝ) ^ 53 := by positivity
    nlinarith
  have bound : ∀ {k l : ℕ} (X : Fin n → Fin k → ℚ) (Y : Fin n → Fin l → ℚ) {A B : ℝ}, k ≤ m → l ≤ m →
      (∀ i j, realDist X i j ≤ A) → (∀ i j, realDist Y i j ≤ B) →
      |((binary64 sqrt sum dot).uProduct ((binary64 sqrt sum dot).uDistanceMatrix X)
        ((binary64 sqrt sum dot).uDistanceMatrix Y) : ℝ) - Spec.uDcovSqr (realDist X) (realDist Y)|
      ≤ 216 * (n ^ 2 + 4 * n + m + 25 : ℕ) * A * B / 2 ^ 53 := by
    intro k l X Y A B hk hl hA hB
    have h1 := ErrR.uProduct h hn (errR_uCentered h hn hA) (errR_uCentered h hn hB)
    have h3 := (h1.mono (l := n ^ 2 + 4 * n + m + 25) (by unfold distErr; omega) le_rfl).bound hK
    refine h3.trans (le_of_eq ?_)
    ring
  refine clippedCorrelation_error h hx0 hy0 hr ((bound x y hp hq hA hB).trans ?_) ((bound x x hp hp hA hA).trans hx)
    ((bound y y hq hq hB hB).trans hy) (Real.abs_le_sqrt (uDcovSqr_cauchy hn _ _))
  rw [← Real.sqrt_sq r0, ← Real.sqrt_mul (sq_nonneg r)]
  apply Real.le_sqrt_of_sq_le
  calc (216 * (n ^ 2 + 4 * n + m + 25 : ℕ) * A * B / (2 : ℝ) ^ 53) ^ 2
      = (216 * (n ^ 2 + 4 * n + m + 25 : ℕ) * A * A / 2 ^ 53) * (216 * (n ^ 2 + 4 * n + m + 25 : ℕ) * B * B / 2 ^ 53) := by ring
    _ ≤ (r * Spec.uDcovSqr (realDist x) (realDist x)) * (r * Spec.uDcovSqr (realDist y) (realDist y)) :=
        mul_le_mul hx hy (by positivity) (by positivity)
    _ = _ := by ring

/-- C92: if the error bounds of C93 for the three variances are at most a fraction `r` of the exact variances, and the exact
correlations with the third sample are not close to one, `1 - R ** 2 ≥ δ` with `δ ≥ 48 * r + 120 * 2 ** -53`, the computed
partial correlation is within `(24 * r + 68 * 2 ** -53) / δ` of the exact one, and outside of the interval from -1 to 1 by no
more than that. What is missing is the range itself and any accuracy without these conditions, which `C92_out_of_range`
refutes. -/
theorem C92_accuracy_partial (h : IsFloat64 sqrt sum dot) (hn : 3 < n) (x : Fin n → Fin p → ℚ) (y : Fin n → Fin q → ℚ)
    (z : Fin n → Fin s → ℚ) {A B C r δ : ℝ} (hA : ∀ i j, realDist x i j ≤ A) (hB : ∀ i j, realDist y i j ≤ B)
    (hC : ∀ i j, realDist z i j ≤ C) (hK : n ^ 2 + 4 * n + max p (max q s) + 25 ≤ 2 ^ 53)
    (hx0 : 0 < Spec.uDcovSqr (realDist x) (realDist x)) (hy0 : 0 < Spec.uDcovSqr (realDist y) (realDist y))
    (hz0 : 0 < Spec.uDcovSqr (realDist z) (realDist z))
    (hx : 216 * (n ^ 2 + 4 * n + max p (max q s) + 25 : ℕ) * A * A / 2 ^ 53 ≤ r * Spec.uDcovSqr (realDist x) (realDist x))
    (hy : 216 * (n ^ 2 + 4 * n + max p (max q s) + 25 : ℕ) * B * B / 2 ^ 53 ≤ r * Spec.uDcovSqr (realDist y) (realDist y))
    (hz : 216 * (n ^ 2 + 4 * n + max p (max q s) + 25 : ℕ) * C * C / 2 ^ 53 ≤ r * Spec.uDcovSqr (realDist z) (realDist z))
    (hxz : δ ≤ 1 - Spec.uDcorSqr (realDist x) (realDist z) ^ 2) (hyz : δ ≤ 1 - Spec.uDcorSqr (realDist y) (realDist z) ^ 2)
    (hδ : 48 * r + 120 / 2 ^ 53 ≤ δ) :
    |((binary64 sqrt sum dot).partialCorrelation x y z : ℝ)
        - Spec.partialDcor (fun i k => (x i k : ℝ)) (fun i k => (y i k : ℝ)) (fun i k => (z i k : ℝ))|
      ≤ (24 * r + 68 / 2 ^ 53) / δ ∧
    |((binary64 sqrt sum dot).partialCorrelation x y z : ℝ)| ≤ 1 + (24 * r + 68 / 2 ^ 53) / δ := by
  have i0 : Fin n := ⟨0, by omega⟩
  have A0 : 0 ≤ A := (Spec.distMat_diag one_ne_zero _ i0).ge.trans (hA i0 i0)
  have r0 : 0 ≤ r := by
    by_contra hneg
    have : 0 ≤ 216 * (n ^ 2 + 4 * n + max p (max q s) + 25 : ℕ) * A * A / (2 : ℝ) ^ 53 := by positivity
    nlinarith
  have hδ0 : 0 < δ := lt_of_lt_of_le (by positivity) hδ
  have hδ1 : δ ≤ 1 := by nlinarith [sq_nonneg (Spec.uDcorSqr (realDist x) (realDist z))]
  have u0 : (0 : ℝ) < 120 / 2 ^ 53 := by positivity
  have hr : r ≤ 1 / 4 := by linarith
  have c1 := clipped_close h hn hA hB (m := max p (max q s)) (by omega) (by omega) hK hr hx0 hy0 hx hy
  have c2 := clipped_close h hn hA hC (m := max p (max q s)) (by omega) (by omega) hK hr hx0 hz0 hx hz
  have c3 := clipped_close h hn hB hC (m := max p (max q s)) (by omega) (by omega) hK hr hy0 hz0 hy hz
  rw [sq] at hxz hyz
  have D0 : 0 < Real.sqrt (1 - Spec.uDcorSqr (realDist x) (realDist z) * Spec.uDcorSqr (realDist x) (realDist z))
      * Real.sqrt (1 - Spec.uDcorSqr (realDist y) (realDist z) * Spec.uDcorSqr (realDist y) (realDist z)) :=
    mul_pos (Real.sqrt_pos.2 (by linarith)) (Real.sqrt_pos.2 (by linarith))
  have hv : Spec.partialDcor (fun i k => (x i k : ℝ)) (fun i k => (y i k : ℝ)) (fun i k => (z i k : ℝ))
      = (Spec.uDcorSqr (realDist x) (realDist y)
        - Spec.uDcorSqr (realDist x) (realDist z) * Spec.uDcorSqr (realDist y) (realDist z))
        / (Real.sqrt (1 - Spec.uDcorSqr (realDist x) (realDist z) * Spec.uDcorSqr (realDist x) (realDist z))
        * Real.sqrt (1 - Spec.uDcorSqr (realDist y) (realDist z) * Spec.uDcorSqr (realDist y) (realDist z))) :=
    partialDcor_value hn (fun i k => (x i k : ℝ)) (fun i k => (y i k : ℝ)) (fun i k => (z i k : ℝ)) D0.ne'
  have hrange := partialDcor_range hn (fun i k => (x i k : ℝ)) (fun i k => (y i k : ℝ)) (fun i k => (z i k : ℝ))
  have hN : |Spec.uDcorSqr (realDist x) (realDist y)
      - Spec.uDcorSqr (realDist x) (realDist z) * Spec.uDcorSqr (realDist y) (realDist z)|
      ≤ Real.sqrt (1 - Spec.uDcorSqr (realDist x) (realDist z) * Spec.uDcorSqr (realDist x) (realDist z))
      * Real.sqrt (1 - Spec.uDcorSqr (realDist y) (realDist z) * Spec.uDcorSqr (realDist y) (realDist z)) := by
    have := hrange
    rw [hv, abs_div, abs_of_pos D0, div_le_one D0] at this
    exact this
  have key := partialFromCorrelations_error h c1.1 c2.1 c3.1 (Spec.abs_uDcorSqr_le_one hn _ _) (Spec.abs_uDcorSqr_le_one hn _ _)
    c1.2 c2.2 c3.2 hδ0 hxz hyz (le_trans (le_of_eq (by ring)) hδ) hN
  have key' : |((binary64 sqrt sum dot).partialCorrelation x y z : ℝ)
        - Spec.partialDcor (fun i k => (x i k : ℝ)) (fun i k => (y i k : ℝ)) (fun i k => (z i k : ℝ))|
      ≤ (24 * r + 68 / 2 ^ 53) / δ := by
    rw [hv]
    refine key.trans (le_of_eq ?_)
    ring
  exact ⟨key', corr_range' key' hrange⟩

/-! ### An accurate case -/

/-- Two groups of two observations, three ways. -/
def nearX : Fin 4 → Fin 1 → ℚ := fun i _ => (![0, 0, 1, 1] : Fin 4 → ℚ) i

@[inherit_doc nearX] def nearY : Fin 4 → Fin 1 → ℚ := fun i _ => (![0, 1, 0, 1] : Fin 4 → ℚ) i

@[inherit_doc nearX] def nearZ : Fin 4 → Fin 1 → ℚ := fun i _ => (![0, 1, 1, 0] : Fin 4 → ℚ) i

theorem nearX_dist : realDist nearX = ![![0, 0, 1, 1], ![0, 0, 1, 1], ![1, 1, 0, 0], ![1, 1, 0, 0]] := by
  funext i j
  unfold realDist
  rw [distMat_one]
  fin_cases i <;> fin_cases j <;> simp [nearX]

theorem nearY_dist : realDist nearY = ![![0, 1, 0, 1], ![1, 0, 1, 0], ![0, 1, 0, 1], ![1, 0, 1, 0]] := by
  funext i j
  unfold realDist
  rw [distMat_one]
  fin_cases i <;> fin_cases j <;> simp [nearY]

theorem nearZ_dist : realDist nearZ = ![![0, 1, 1, 0], ![1, 0, 0, 1], ![1, 0, 0, 1], ![0, 1, 1, 0]] := by
  funext i j
  unfold realDist
  rw [distMat_one]
  fin_cases i <;> fin_cases j <;> simp [nearZ]

/-- All conditions of `C92_accuracy_partial` hold, and the partial correlation is within `2 ** -32` of the exact value. -/
example (h : IsFloat64 sqrt sum dot) :
    |((binary64 sqrt sum dot).partialCorrelation nearX nearY nearZ : ℝ) - -1| ≤ 1 / 2 ^ 32 := by
  have hA : ∀ i j, realDist nearX i j ≤ 1 := by
    intro i j; rw [nearX_dist]; fin_cases i <;> fin_cases j <;> norm_num
  have hB : ∀ i j, realDist nearY i j ≤ 1 := by
    intro i j; rw [nearY_dist]; fin_cases i <;> fin_cases j <;> norm_num
  have hC : ∀ i j, realDist nearZ i j ≤ 1 := by
    intro i j; rw [nearZ_dist]; fin_cases i <;> fin_cases j <;> norm_num
  have cx : Spec.uCentre (realDist nearX) = ![![0, -2 / 3, 1 / 3, 1 / 3], ![-2 / 3, 0, 1 / 3, 1 / 3],
      ![1 / 3, 1 / 3, 0, -2 / 3], ![1 / 3, 1 / 3, -2 / 3, 0]] := by
    funext i j
    rw [nearX_dist]
    unfold Spec.uCentre
    simp only [Fin.sum_univ_four]
    fin_cases i <;> fin_cases j <;> simp <;> norm_num
  have cy : Spec.uCentre (realDist nearY) = ![![0, 1 / 3, -2 / 3, 1 / 3], ![1 / 3, 0, 1 / 3, -2 / 3],
      ![-2 / 3, 1 / 3, 0, 1 / 3], ![1 / 3, -2 / 3, 1 / 3, 0]] := by
    funext i j
    rw [nearY_dist]
    unfold Spec.uCentre
    simp only [Fin.sum_univ_four]
    fin_cases i <;> fin_cases j <;> simp <;> norm_num
  have cz : Spec.uCentre (realDist nearZ) = ![![0, 1 / 3, 1 / 3, -2 / 3], ![1 / 3, 0, -2 / 3, 1 / 3],
      ![1 / 3, -2 / 3, 0, 1 / 3], ![-2 / 3, 1 / 3, 1 / 3, 0]] := by
    funext i j
    rw [nearZ_dist]
    unfold Spec.uCentre
    simp only [Fin.sum_univ_four]
    fin_cases i <;> fin_cases j <;> simp <;> norm_num
  have v1 : Spec.uDcovSqr (realDist nearX) (realDist nearX) = 2 / 3 := by
    rw [Spec.uDcovSqr_eq_uIp, cx]; unfold uIp; simp [Fin.sum_univ_four]; norm_num
  have v2 : Spec.uDcovSqr (realDist nearY) (realDist nearY) = 2 / 3 := by
    rw [Spec.uDcovSqr_eq_uIp, cy]; unfold uIp; simp [Fin.sum_univ_four]; norm_num
  have v3 : Spec.uDcovSqr (realDist nearZ) (realDist nearZ) = 2 / 3 := by
    rw [Spec.uDcovSqr_eq_uIp, cz]; unfold uIp; simp [Fin.sum_univ_four]; norm_num
  have v4 : Spec.uDcovSqr (realDist nearX) (realDist nearY) = -1 / 3 := by
    rw [Spec.uDcovSqr_eq_uIp, cx, cy]; unfold uIp; simp [Fin.sum_univ_four]; norm_num
  have v5 : Spec.uDcovSqr (realDist nearX) (realDist nearZ) = -1 / 3 := by
    rw [Spec.uDcovSqr_eq_uIp, cx, cz]; unfold uIp; simp [Fin.sum_univ_four]; norm_num
  have v6 : Spec.uDcovSqr (realDist nearY) (realDist nearZ) = -1 / 3 := by
    rw [Spec.uDcovSqr_eq_uIp, cy, cz]; unfold uIp; simp [Fin.sum_univ_four]; norm_num
  have root : Real.sqrt |(2 / 3 : ℝ) * (2 / 3)| = 2 / 3 := by
    rw [abs_of_pos (by norm_num), Real.sqrt_mul_self (by norm_num)]
  have ratio : Spec.ratio (-1 / 3) (2 / 3) (2 / 3) = -1 / 2 := by
    unfold Spec.ratio
    rw [if_neg (by norm_num), root]
    norm_num
  have rxy : Spec.uDcorSqr (realDist nearX) (realDist nearY) = -1 / 2 := by
    unfold Spec.uDcorSqr; rw [v1, v2, v4, ratio]
  have rxz : Spec.uDcorSqr (realDist nearX) (realDist nearZ) = -1 / 2 := by
    unfold Spec.uDcorSqr; rw [v1, v3, v5, ratio]
  have ryz : Spec.uDcorSqr (realDist nearY) (realDist nearZ) = -1 / 2 := by
    unfold Spec.uDcorSqr; rw [v2, v3, v6, ratio]
  have root' : Real.sqrt (1 - -1 / 2 * (-1 / 2)) * Real.sqrt (1 - -1 / 2 * (-1 / 2)) = 3 / 4 := by
    rw [Real.mul_self_sqrt (by norm_num)]
    norm_num
  have hv : Spec.partialDcor (fun i k => (nearX i k : ℝ)) (fun i k => (nearY i k : ℝ)) (fun i k => (nearZ i k : ℝ)) = -1 := by
    have := partialDcor_value (by norm_num) (fun i k => (nearX i k : ℝ)) (fun i k => (nearY i k : ℝ))
      (fun i k => (nearZ i k : ℝ)) (by
        show Real.sqrt (1 - Spec.uDcorSqr (realDist nearX) (realDist nearZ) * Spec.uDcorSqr (realDist nearX) (realDist nearZ))
          * Real.sqrt (1 - Spec.uDcorSqr (realDist nearY) (realDist nearZ) * Spec.uDcorSqr (realDist nearY) (realDist nearZ)) ≠ 0
        rw [rxz, ryz, root']
        norm_num)
    rw [this]
    show (Spec.uDcorSqr (realDist nearX) (realDist nearY)
        - Spec.uDcorSqr (realDist nearX) (realDist nearZ) * Spec.uDcorSqr (realDist nearY) (realDist nearZ))
        / (Real.sqrt (1 - Spec.uDcorSqr (realDist nearX) (realDist nearZ) * Spec.uDcorSqr (realDist nearX) (realDist nearZ))
        * Real.sqrt (1 - Spec.uDcorSqr (realDist nearY) (realDist nearZ) * Spec.uDcorSqr (realDist nearY) (realDist nearZ))) = -1
    rw [rxy, rxz, ryz, root']
    norm_num
  have key := (C92_accuracy_partial h (by norm_num) nearX nearY nearZ (r := 1 / 2 ^ 38) (δ := 3 / 4) hA hB hC (by norm_num)
    (by rw [v1]; norm_num) (by rw [v2]; norm_num) (by rw [v3]; norm_num) (by rw [v1]; norm_num) (by rw [v2]; norm_num)
    (by rw [v3]; norm_num) (by rw [rxz]; norm_num) (by rw [ryz]; norm_num) (by norm_num)).1
  rw [hv] at key
  refine key.trans ?_
  norm_num

end Dcor.Props

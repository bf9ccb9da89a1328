/-
Property C137: the row-wise correlation of samples of dtype `float16`.
-/
import Verif.Props.Float16Rowwise
import Verif.Proofs.Float16RowCorrelation
import Verif.Props.FloatCorr

namespace Dcor.Props

open Dcor F64

variable {sqrt : ℚ → ℚ} {sum : List ℚ → ℚ} {dot : List (ℚ × ℚ) → ℚ} {sqrt16 : F64 → F64} {n : ℕ}

private theorem rowCovarianceHalf_ok (h64 : IsFloat64 sqrt sum dot) (hn : 3 < n) (u : Bool)
    {argsort : (Fin n → ℚ) → Equiv.Perm (Fin n)} (hsort : ∀ v : Fin n → ℚ, Monotone fun i => v (argsort v i))
    {x y : Fin n → ℚ} (fx : ∀ i, F16.round (x i) = fin (x i)) (fy : ∀ i, F16.round (y i) = fin (y i)) (hK : 4 * n + 22 ≤ 2 ^ 53) :
    ∃ r, Arith.rowCovarianceHalf (binary64 sqrt sum dot) u argsort x y = .ok r := by
  have bound : ∀ v : Fin n → ℚ, ∀ i, |v i| ≤ ∑ k, |v k| := fun v i =>
    Finset.single_le_sum (f := fun k => |v k|) (fun k _ => abs_nonneg _) (Finset.mem_univ i)
  cases u with
  | false =>
    obtain ⟨s, e, -⟩ := C73_avl_accuracy h64 hn true hsort (fun i => F16.round64_of_round (fx i))
      (fun i => F16.round64_of_round (fy i)) (bound x) (bound y) hK
    exact ⟨_, by rw [Arith.rowCovarianceHalf, rowCovariance_of_stats _ e]; rfl⟩
  | true =>
    obtain ⟨s, e, -⟩ := C73_avl_accuracy_unbiased h64 hn true hsort (fun i => F16.round64_of_round (fx i))
      (fun i => F16.round64_of_round (fy i)) (bound x) (bound y) hK
    exact ⟨_, by rw [Arith.rowCovarianceHalf, rowCovariance_of_stats _ e]; rfl⟩

/-- C137, the part that holds: there is a result, and it is never NaN. Missing: that it is close to the squared distance correlation
for all variances, see `C137_accuracy_partial` and `C137_left_fails`. -/
theorem C137_not_nan_partial (h64 : IsFloat64 sqrt sum dot) (hn : 3 < n) (u : Bool)
    {argsort : (Fin n → ℚ) → Equiv.Perm (Fin n)} (hsort : ∀ v : Fin n → ℚ, Monotone fun i => v (argsort v i))
    {x y : Fin n → ℚ} (fx : ∀ i, F16.round (x i) = fin (x i)) (fy : ∀ i, F16.round (y i) = fin (y i)) (hK : 4 * n + 22 ≤ 2 ^ 53) :
    ∃ r, Arith.rowCorrelationHalf (binary64 sqrt sum dot) sqrt16 u argsort x y = .ok r ∧ r ≠ nan := by
  obtain ⟨c, ec⟩ := rowCovarianceHalf_ok h64 hn u hsort fx fy hK
  obtain ⟨a, ea⟩ := rowCovarianceHalf_ok h64 hn u hsort fx fx hK
  obtain ⟨b, eb⟩ := rowCovarianceHalf_ok h64 hn u hsort fy fy hK
  unfold Arith.rowCorrelationHalf
  rw [ec, ea, eb]
  exact ⟨_, rfl, rowQuotientHalf_ne_nan _ _ _ _⟩

private theorem abs_le_roots {a b c : ℝ} (ha : 0 ≤ a) (h : c ^ 2 ≤ a * b) : |c| ≤ √a * √b := by
  rw [← Real.sqrt_mul ha, ← Real.sqrt_sq_eq_abs]
  exact Real.sqrt_le_sqrt h

private theorem roots_lt {a b t : ℝ} (ha : 0 < a) (h1 : a < t) (h2 : b < t) : √a * √b < t := by
  rw [← Real.sqrt_mul ha.le, Real.sqrt_lt' (ha.trans h1)]
  nlinarith

private theorem le_roots {a b m : ℝ} (hm : 0 ≤ m) (h1 : m ≤ a) (h2 : m ≤ b) : m ≤ √a * √b := by
  rw [← Real.sqrt_mul (hm.trans h1)]
  apply Real.le_sqrt_of_sq_le
  nlinarith

private theorem ratio_pos {c a b : ℝ} (ha : 0 < a) (hb : 0 < b) : Spec.ratio c a b = c / (√a * √b) := by
  unfold Spec.ratio
  rw [if_neg (mul_pos ha hb).ne', abs_of_pos (mul_pos ha hb), Real.sqrt_mul ha.le]

/-- C137, the part that holds: the entry is within 13 / 1024 of the squared distance correlation if the squared distance variances of the
rows are below 65520, and large in comparison with the error of `float64` and the smallest `float16` number. Missing: other variances, see
`C137_left_fails`. -/
theorem C137_accuracy_partial (h64 : IsFloat64 sqrt sum dot) (hs : F16.IsSqrt sqrt16) (hn : 3 < n)
    {argsort : (Fin n → ℚ) → Equiv.Perm (Fin n)} (hsort : ∀ v : Fin n → ℚ, Monotone fun i => v (argsort v i))
    {x y : Fin n → ℚ} {M : ℚ} {η : ℝ} (fx : ∀ i, F16.round (x i) = fin (x i)) (fy : ∀ i, F16.round (y i) = fin (y i))
    (hx : ∀ i, |x i| ≤ M) (hy : ∀ i, |y i| ≤ M) (hK : 4 * n + 22 ≤ 2 ^ 53)
    (hη : η = 329 * (4 * n + 22) * (M * M) / 2 ^ 53 + 1 / 2 ^ 25)
    (ha : 2 ^ 11 * η ≤ Spec.dcovSqr (realDist fun i (_ : Fin 1) => x i) (realDist fun i (_ : Fin 1) => x i))
    (hb : 2 ^ 11 * η ≤ Spec.dcovSqr (realDist fun i (_ : Fin 1) => y i) (realDist fun i (_ : Fin 1) => y i))
    (ha2 : Spec.dcovSqr (realDist fun i (_ : Fin 1) => x i) (realDist fun i (_ : Fin 1) => x i) + η < 65520)
    (hb2 : Spec.dcovSqr (realDist fun i (_ : Fin 1) => y i) (realDist fun i (_ : Fin 1) => y i) + η < 65520) :
    ∃ r : ℚ, Arith.rowCorrelationHalf (binary64 sqrt sum dot) sqrt16 false argsort x y = .ok (fin r) ∧
      |(r : ℝ) - Spec.dcorSqr (realDist fun i (_ : Fin 1) => x i) (realDist fun i (_ : Fin 1) => y i)| ≤ 13 / 2 ^ 10 := by
  have hc := Spec.dcovSqr_cauchy (realDist fun i (_ : Fin 1) => x i) (realDist fun i (_ : Fin 1) => y i)
  have Hxy := C136_accuracy_partial h64 hn hsort fx fy hx hy hK
  have Hxx := C136_accuracy_partial h64 hn hsort fx fx hx hx hK
  have Hyy := C136_accuracy_partial h64 hn hsort fy fy hy hy hK
  unfold Spec.dcorSqr
  have hw : (0 : ℝ) ≤ (4 * n + 22) * (M * M) / 2 ^ 53 := by
    have : (0 : ℝ) ≤ (M : ℝ) * M := mul_self_nonneg _
    positivity
  have e328 : (328 : ℝ) * (4 * n + 22) * (M * M) / 2 ^ 53 = 328 * ((4 * n + 22) * (M * M) / 2 ^ 53) := by ring
  have e329 : (329 : ℝ) * (4 * n + 22) * (M * M) / 2 ^ 53 = 329 * ((4 * n + 22) * (M * M) / 2 ^ 53) := by ring
  rw [e328, e329] at Hxy Hxx Hyy
  rw [e329] at hη
  unfold Arith.rowCorrelationHalf
  generalize Spec.dcovSqr (realDist fun i (_ : Fin 1) => x i) (realDist fun i (_ : Fin 1) => x i) = a at *
  generalize Spec.dcovSqr (realDist fun i (_ : Fin 1) => y i) (realDist fun i (_ : Fin 1) => y i) = b at *
  generalize Spec.dcovSqr (realDist fun i (_ : Fin 1) => x i) (realDist fun i (_ : Fin 1) => y i) = c at *
  generalize ((4 : ℝ) * n + 22) * (M * M) / 2 ^ 53 = w at *
  have hη0 : 1 / 2 ^ 25 ≤ η := by rw [hη]; linarith
  have ha14 : 1 / 2 ^ 14 ≤ a := by linarith
  have hb14 : 1 / 2 ^ 14 ≤ b := by linarith
  have ha0 : 0 < a := lt_of_lt_of_le (by norm_num) ha14
  have hb0 : 0 < b := lt_of_lt_of_le (by norm_num) hb14
  have hc1 := abs_le_roots ha0.le hc
  have hm := le_roots (m := 2 ^ 11 * η) (by linarith) ha hb
  have hcη : √a * √b < 65520 - η := roots_lt ha0 (by linarith) (by linarith)
  have hc2 := le_abs_self c
  obtain ⟨c', ec, hc'⟩ := Hxy (by linarith)
  obtain ⟨a', ea, ha'⟩ := Hxx (by linarith)
  obtain ⟨b', eb, hb'⟩ := Hyy (by linarith)
  obtain ⟨r, er, hr⟩ := rowQuotientHalf_close hs ha0 hb14 (by linarith) hc1 (c' := c') (a' := a') (b' := b')
    (by linarith) (by linarith) (by linarith)
  rw [ec, ea, eb]
  exact ⟨r, congrArg Except.ok er, by rw [ratio_pos ha0 hb0]; exact hr⟩

/-- C137, the part that holds: the entry is within 13 / 1024 of the bias-corrected squared distance correlation if the squared distance variances of the
rows are below 65520, and large in comparison with the error of `float64` and the smallest `float16` number. Missing: other variances, see
`C137_unbiased_left_fails`. -/
theorem C137_unbiased_accuracy_partial (h64 : IsFloat64 sqrt sum dot) (hs : F16.IsSqrt sqrt16) (hn : 3 < n)
    {argsort : (Fin n → ℚ) → Equiv.Perm (Fin n)} (hsort : ∀ v : Fin n → ℚ, Monotone fun i => v (argsort v i))
    {x y : Fin n → ℚ} {M : ℚ} {η : ℝ} (fx : ∀ i, F16.round (x i) = fin (x i)) (fy : ∀ i, F16.round (y i) = fin (y i))
    (hx : ∀ i, |x i| ≤ M) (hy : ∀ i, |y i| ≤ M) (hK : 4 * n + 22 ≤ 2 ^ 53)
    (hη : η = 2370 * (4 * n + 22) * (M * M) / 2 ^ 53 + 1 / 2 ^ 25)
    (ha : 2 ^ 11 * η ≤ Spec.uDcovSqr (realDist fun i (_ : Fin 1) => x i) (realDist fun i (_ : Fin 1) => x i))
    (hb : 2 ^ 11 * η ≤ Spec.uDcovSqr (realDist fun i (_ : Fin 1) => y i) (realDist fun i (_ : Fin 1) => y i))
    (ha2 : Spec.uDcovSqr (realDist fun i (_ : Fin 1) => x i) (realDist fun i (_ : Fin 1) => x i) + η < 65520)
    (hb2 : Spec.uDcovSqr (realDist fun i (_ : Fin 1) => y i) (realDist fun i (_ : Fin 1) => y i) + η < 65520) :
    ∃ r : ℚ, Arith.rowCorrelationHalf (binary64 sqrt sum dot) sqrt16 true argsort x y = .ok (fin r) ∧
      |(r : ℝ) - Spec.uDcorSqr (realDist fun i (_ : Fin 1) => x i) (realDist fun i (_ : Fin 1) => y i)| ≤ 13 / 2 ^ 10 := by
  have hc := uDcovSqr_cauchy hn (realDist fun i (_ : Fin 1) => x i) (realDist fun i (_ : Fin 1) => y i)
  have Hxy := C136_unbiased_accuracy_partial h64 hn hsort fx fy hx hy hK
  have Hxx := C136_unbiased_accuracy_partial h64 hn hsort fx fx hx hx hK
  have Hyy := C136_unbiased_accuracy_partial h64 hn hsort fy fy hy hy hK
  unfold Spec.uDcorSqr
  have hw : (0 : ℝ) ≤ (4 * n + 22) * (M * M) / 2 ^ 53 := by
    have : (0 : ℝ) ≤ (M : ℝ) * M := mul_self_nonneg _
    positivity
  have e2368 : (2368 : ℝ) * (4 * n + 22) * (M * M) / 2 ^ 53 = 2368 * ((4 * n + 22) * (M * M) / 2 ^ 53) := by ring
  have e2370 : (2370 : ℝ) * (4 * n + 22) * (M * M) / 2 ^ 53 = 2370 * ((4 * n + 22) * (M * M) / 2 ^ 53) := by ring
  rw [e2368, e2370] at Hxy Hxx Hyy
  rw [e2370] at hη
  unfold Arith.rowCorrelationHalf
  generalize Spec.uDcovSqr (realDist fun i (_ : Fin 1) => x i) (realDist fun i (_ : Fin 1) => x i) = a at *
  generalize Spec.uDcovSqr (realDist fun i (_ : Fin 1) => y i) (realDist fun i (_ : Fin 1) => y i) = b at *
  generalize Spec.uDcovSqr (realDist fun i (_ : Fin 1) => x i) (realDist fun i (_ : Fin 1) => y i) = c at *
  generalize ((4 : ℝ) * n + 22) * (M * M) / 2 ^ 53 = w at *
  have hη0 : 1 / 2 ^ 25 ≤ η := by rw [hη]; linarith
  have ha14 : 1 / 2 ^ 14 ≤ a := by linarith
  have hb14 : 1 / 2 ^ 14 ≤ b := by linarith
  have ha0 : 0 < a := lt_of_lt_of_le (by norm_num) ha14
  have hb0 : 0 < b := lt_of_lt_of_le (by norm_num) hb14
  have hc1 := abs_le_roots ha0.le hc
  have hm := le_roots (m := 2 ^ 11 * η) (by linarith) ha hb
  have hcη : √a * √b < 65520 - η := roots_lt ha0 (by linarith) (by linarith)
  obtain ⟨c', ec, hc'⟩ := Hxy (by linarith)
  obtain ⟨a', ea, ha'⟩ := Hxx (by rw [abs_of_pos ha0]; linarith)
  obtain ⟨b', eb, hb'⟩ := Hyy (by rw [abs_of_pos hb0]; linarith)
  rw [abs_of_pos ha0] at ha'
  rw [abs_of_pos hb0] at hb'
  obtain ⟨r, er, hr⟩ := rowQuotientHalf_close hs ha0 hb14 (by linarith) hc1 (c' := c') (a' := a') (b' := b')
    (by linarith) (by linarith) (by linarith)
  rw [ec, ea, eb]
  exact ⟨r, congrArg Except.ok er, by rw [ratio_pos ha0 hb0]; exact hr⟩

/-- C137: if the squared distance variance of the first row is 65520 or more, the result is zero, whatever the second row. -/
theorem C137_left_fails (h64 : IsFloat64 sqrt sum dot) (hs : sqrt16 (inf false) = inf false) (hn : 3 < n)
    {argsort : (Fin n → ℚ) → Equiv.Perm (Fin n)} (hsort : ∀ v : Fin n → ℚ, Monotone fun i => v (argsort v i))
    {x y : Fin n → ℚ} {X : ℚ} (fx : ∀ i, F16.round (x i) = fin (x i)) (fy : ∀ i, F16.round (y i) = fin (y i))
    (hx : ∀ i, |x i| ≤ X) (hK : 4 * n + 22 ≤ 2 ^ 53)
    (hc : 65520 + 328 * (4 * n + 22) * (X * X) / 2 ^ 53
      ≤ Spec.dcovSqr (realDist fun i (_ : Fin 1) => x i) (realDist fun i (_ : Fin 1) => x i)) :
    Arith.rowCorrelationHalf (binary64 sqrt sum dot) sqrt16 false argsort x y = .ok (fin 0) := by
  obtain ⟨c, ec⟩ := rowCovarianceHalf_ok h64 hn false hsort fx fy hK
  obtain ⟨b, eb⟩ := rowCovarianceHalf_ok h64 hn false hsort fy fy hK
  unfold Arith.rowCorrelationHalf
  rw [ec, C136_large_fail h64 hn hsort fx fx hx hx hK hc, eb]
  exact congrArg Except.ok (rowQuotientHalf_left hs _ _)

/-- C137: the same for the second row. -/
theorem C137_right_fails (h64 : IsFloat64 sqrt sum dot) (hs : sqrt16 (inf false) = inf false) (hn : 3 < n)
    {argsort : (Fin n → ℚ) → Equiv.Perm (Fin n)} (hsort : ∀ v : Fin n → ℚ, Monotone fun i => v (argsort v i))
    {x y : Fin n → ℚ} {Y : ℚ} (fx : ∀ i, F16.round (x i) = fin (x i)) (fy : ∀ i, F16.round (y i) = fin (y i))
    (hy : ∀ i, |y i| ≤ Y) (hK : 4 * n + 22 ≤ 2 ^ 53)
    (hc : 65520 + 328 * (4 * n + 22) * (Y * Y) / 2 ^ 53
      ≤ Spec.dcovSqr (realDist fun i (_ : Fin 1) => y i) (realDist fun i (_ : Fin 1) => y i)) :
    Arith.rowCorrelationHalf (binary64 sqrt sum dot) sqrt16 false argsort x y = .ok (fin 0) := by
  obtain ⟨c, ec⟩ := rowCovarianceHalf_ok h64 hn false hsort fx fy hK
  obtain ⟨a, ea⟩ := rowCovarianceHalf_ok h64 hn false hsort fx fx hK
  unfold Arith.rowCorrelationHalf
  rw [ec, ea, C136_large_fail h64 hn hsort fy fy hy hy hK hc]
  exact congrArg Except.ok (rowQuotientHalf_right hs _ _)

/-- C137: bias-corrected, first row. -/
theorem C137_unbiased_left_fails (h64 : IsFloat64 sqrt sum dot) (hs : sqrt16 (inf false) = inf false) (hn : 3 < n)
    {argsort : (Fin n → ℚ) → Equiv.Perm (Fin n)} (hsort : ∀ v : Fin n → ℚ, Monotone fun i => v (argsort v i))
    {x y : Fin n → ℚ} {X : ℚ} (fx : ∀ i, F16.round (x i) = fin (x i)) (fy : ∀ i, F16.round (y i) = fin (y i))
    (hx : ∀ i, |x i| ≤ X) (hK : 4 * n + 22 ≤ 2 ^ 53)
    (hc : 65520 + 2368 * (4 * n + 22) * (X * X) / 2 ^ 53
      ≤ Spec.uDcovSqr (realDist fun i (_ : Fin 1) => x i) (realDist fun i (_ : Fin 1) => x i)) :
    Arith.rowCorrelationHalf (binary64 sqrt sum dot) sqrt16 true argsort x y = .ok (fin 0) := by
  obtain ⟨c, ec⟩ := rowCovarianceHalf_ok h64 hn true hsort fx fy hK
  obtain ⟨b, eb⟩ := rowCovarianceHalf_ok h64 hn true hsort fy fy hK
  unfold Arith.rowCorrelationHalf
  rw [ec, C136_unbiased_large_fail h64 hn hsort fx fx hx hx hK hc, eb]
  exact congrArg Except.ok (rowQuotientHalf_left hs _ _)

/-- C137: bias-corrected, second row. -/
theorem C137_unbiased_right_fails (h64 : IsFloat64 sqrt sum dot) (hs : sqrt16 (inf false) = inf false) (hn : 3 < n)
    {argsort : (Fin n → ℚ) → Equiv.Perm (Fin n)} (hsort : ∀ v : Fin n → ℚ, Monotone fun i => v (argsort v i))
    {x y : Fin n → ℚ} {Y : ℚ} (fx : ∀ i, F16.round (x i) = fin (x i)) (fy : ∀ i, F16.round (y i) = fin (y i))
    (hy : ∀ i, |y i| ≤ Y) (hK : 4 * n + 22 ≤ 2 ^ 53)
    (hc : 65520 + 2368 * (4 * n + 22) * (Y * Y) / 2 ^ 53
      ≤ Spec.uDcovSqr (realDist fun i (_ : Fin 1) => y i) (realDist fun i (_ : Fin 1) => y i)) :
    Arith.rowCorrelationHalf (binary64 sqrt sum dot) sqrt16 true argsort x y = .ok (fin 0) := by
  obtain ⟨c, ec⟩ := rowCovarianceHalf_ok h64 hn true hsort fx fy hK
  obtain ⟨a, ea⟩ := rowCovarianceHalf_ok h64 hn true hsort fx fx hK
  unfold Arith.rowCorrelationHalf
  rw [ec, ea, C136_unbiased_large_fail h64 hn hsort fy fy hy hy hK hc]
  exact congrArg Except.ok (rowQuotientHalf_right hs _ _)

/-- C137: so the correlation of two equal rows is zero instead of one. -/
theorem C137_self_fails (h64 : IsFloat64 sqrt sum dot) (hs : sqrt16 (inf false) = inf false)
    {argsort : (Fin 4 → ℚ) → Equiv.Perm (Fin 4)} (hsort : ∀ v : Fin 4 → ℚ, Monotone fun i => v (argsort v i)) :
    Arith.rowCorrelationHalf (binary64 sqrt sum dot) sqrt16 false argsort altitudes altitudes = .ok (fin 0) ∧
      (∀ i, F16.round (altitudes i) = fin (altitudes i)) ∧
      Spec.dcorSqr (realDist fun i (_ : Fin 1) => altitudes i) (realDist fun i (_ : Fin 1) => altitudes i) = 1 := by
  refine ⟨C137_left_fails (X := 2000) h64 hs (by norm_num) hsort (by decide +kernel) (by decide +kernel) (by decide +kernel)
    (by norm_num) (by rw [altitudes_value]; norm_num), by decide +kernel, ?_⟩
  unfold Spec.dcorSqr Spec.ratio
  rw [altitudes_value, if_neg (by norm_num), abs_mul_self, Real.sqrt_mul_self (by norm_num)]
  norm_num

/-- The squared distance variance of a row whose observations are close together is zero. -/
private theorem rowCovarianceHalf_tiny (h64 : IsFloat64 sqrt sum dot) (hn : 3 < n)
    {argsort : (Fin n → ℚ) → Equiv.Perm (Fin n)} (hsort : ∀ v : Fin n → ℚ, Monotone fun i => v (argsort v i))
    {x : Fin n → ℚ} {X : ℚ} (fx : ∀ i, F16.round (x i) = fin (x i)) (hx : ∀ i, |x i| ≤ X) (hK : 4 * n + 22 ≤ 2 ^ 53)
    (ha : Spec.dcovSqr (realDist fun i (_ : Fin 1) => x i) (realDist fun i (_ : Fin 1) => x i)
      + 328 * (4 * n + 22) * (X * X) / 2 ^ 53 < 1 / 2 ^ 25) :
    Arith.rowCovarianceHalf (binary64 sqrt sum dot) false argsort x x = .ok (fin 0) := by
  obtain ⟨s, e, e1, -⟩ := C73_avl_accuracy h64 hn true hsort (fun i => F16.round64_of_round (fx i))
    (fun i => F16.round64_of_round (fx i)) hx hx hK
  have h1 := abs_le.1 e1
  have h0 : 0 ≤ Spec.dcovSqr (realDist fun i (_ : Fin 1) => x i) (realDist fun i (_ : Fin 1) => x i) :=
    Spec.dcovSqr_nonneg _ _ one_pos one_le_two
  have hs : |s.cov| < 1 / 2 ^ 25 := by
    have : |(s.cov : ℝ)| < 1 / 2 ^ 25 := abs_lt.2 ⟨by linarith, by linarith⟩
    have : ((|s.cov| : ℚ) : ℝ) < ((1 / 2 ^ 25 : ℚ) : ℝ) := by push_cast; exact this
    exact_mod_cast this
  rw [Arith.rowCovarianceHalf, rowCovariance_of_stats _ e]
  exact congrArg Except.ok (F16.round_zero hs)

/-- C137: if the squared distance variance of the first row is below half of the smallest `float16` number, but the squared distance
covariance is not, the entry is infinite. (In the model zeros have no sign. The sign of the zero in the code is that of the variance
computed in `float64`, positive if its error is smaller than the variance, as in `C137_equal_groups_fail`.) -/
theorem C137_infinite_fails (h64 : IsFloat64 sqrt sum dot) (hs : F16.IsSqrt sqrt16) (hn : 3 < n)
    {argsort : (Fin n → ℚ) → Equiv.Perm (Fin n)} (hsort : ∀ v : Fin n → ℚ, Monotone fun i => v (argsort v i))
    {x y : Fin n → ℚ} {X Y : ℚ} (fx : ∀ i, F16.round (x i) = fin (x i)) (fy : ∀ i, F16.round (y i) = fin (y i))
    (hx : ∀ i, |x i| ≤ X) (hy : ∀ i, |y i| ≤ Y) (hK : 4 * n + 22 ≤ 2 ^ 53)
    (ha : Spec.dcovSqr (realDist fun i (_ : Fin 1) => x i) (realDist fun i (_ : Fin 1) => x i)
      + 328 * (4 * n + 22) * (X * X) / 2 ^ 53 < 1 / 2 ^ 25)
    (hb : Spec.dcovSqr (realDist fun i (_ : Fin 1) => y i) (realDist fun i (_ : Fin 1) => y i)
      + 328 * (4 * n + 22) * (Y * Y) / 2 ^ 53 < 65520)
    (hc : 2 * (329 * (4 * n + 22) * (X * Y) / 2 ^ 53 + 1 / 2 ^ 25)
      ≤ Spec.dcovSqr (realDist fun i (_ : Fin 1) => x i) (realDist fun i (_ : Fin 1) => y i))
    (hc2 : Spec.dcovSqr (realDist fun i (_ : Fin 1) => x i) (realDist fun i (_ : Fin 1) => y i)
      + 328 * (4 * n + 22) * (X * Y) / 2 ^ 53 < 65520) :
    Arith.rowCorrelationHalf (binary64 sqrt sum dot) sqrt16 false argsort x y = .ok (inf false) := by
  obtain ⟨c, ec, hc'⟩ := C136_accuracy_partial h64 hn hsort fx fy hx hy hK hc2
  obtain ⟨b, eb, -⟩ := C136_accuracy_partial h64 hn hsort fy fy hy hy hK hb
  unfold Arith.rowCorrelationHalf
  rw [ec, rowCovarianceHalf_tiny h64 hn hsort fx hx hK ha, eb]
  refine congrArg Except.ok (rowQuotientHalf_infinite hs ?_)
  have hX : 0 ≤ X := (abs_nonneg _).trans (hx ⟨0, by omega⟩)
  have hY : 0 ≤ Y := (abs_nonneg _).trans (hy ⟨0, by omega⟩)
  have hw : (0 : ℝ) ≤ 329 * (4 * n + 22) * (X * Y) / 2 ^ 53 := by
    have : (0 : ℝ) ≤ (X : ℝ) * Y := by exact_mod_cast mul_nonneg hX hY
    positivity
  have h1 := abs_le.1 hc'
  have : (0 : ℝ) < c := by linarith
  exact_mod_cast this

/-- C137: a row whose squared distance variance is below half of the smallest `float16` number has correlation zero with itself. -/
theorem C137_tiny_self_fails (h64 : IsFloat64 sqrt sum dot) (hn : 3 < n)
    {argsort : (Fin n → ℚ) → Equiv.Perm (Fin n)} (hsort : ∀ v : Fin n → ℚ, Monotone fun i => v (argsort v i))
    {x : Fin n → ℚ} {X : ℚ} (fx : ∀ i, F16.round (x i) = fin (x i)) (hx : ∀ i, |x i| ≤ X) (hK : 4 * n + 22 ≤ 2 ^ 53)
    (ha0 : 0 < Spec.dcovSqr (realDist fun i (_ : Fin 1) => x i) (realDist fun i (_ : Fin 1) => x i))
    (ha : Spec.dcovSqr (realDist fun i (_ : Fin 1) => x i) (realDist fun i (_ : Fin 1) => x i)
      + 328 * (4 * n + 22) * (X * X) / 2 ^ 53 < 1 / 2 ^ 25) :
    Arith.rowCorrelationHalf (binary64 sqrt sum dot) sqrt16 false argsort x x = .ok (fin 0) ∧
      Spec.dcorSqr (realDist fun i (_ : Fin 1) => x i) (realDist fun i (_ : Fin 1) => x i) = 1 := by
  refine ⟨?_, ?_⟩
  · unfold Arith.rowCorrelationHalf
    rw [rowCovarianceHalf_tiny h64 hn hsort fx hx hK ha]
    exact congrArg Except.ok (rowQuotientHalf_zero (F16.div_zero_or_nan (F16.div_zero_or_nan (.inl rfl) _) _))
  · unfold Spec.dcorSqr
    rw [ratio_pos ha0 ha0, Real.mul_self_sqrt ha0.le, div_self ha0.ne']

/-- Two groups of concentrations. -/
def concentrations : Fin 4 → ℚ := ![0, 0, 1 / 4096, 1 / 4096]

/-- Two groups of doses. -/
def doses : Fin 4 → ℚ := ![0, 0, 200, 200]

theorem concentrations_value :
    Spec.dcovSqr (realDist fun i (_ : Fin 1) => concentrations i) (realDist fun i (_ : Fin 1) => concentrations i) = 1 / 2 ^ 26 := by
  unfold realDist
  rw [← exactFrom_biased (by norm_num)]
  have : exactFrom 4 false (absTerms concentrations concentrations).meanProd (absTerms concentrations concentrations).aAxis
      (absTerms concentrations concentrations).aTotal (absTerms concentrations concentrations).bAxis
      (absTerms concentrations concentrations).bTotal = 1 / 2 ^ 26 := by decide +kernel
  rw [this]
  norm_num

theorem doses_value : Spec.dcovSqr (realDist fun i (_ : Fin 1) => doses i) (realDist fun i (_ : Fin 1) => doses i) = 10000 := by
  unfold realDist
  rw [← exactFrom_biased (by norm_num)]
  have : exactFrom 4 false (absTerms doses doses).meanProd (absTerms doses doses).aAxis (absTerms doses doses).aTotal
      (absTerms doses doses).bAxis (absTerms doses doses).bTotal = 10000 := by decide +kernel
  rw [this]
  norm_num

theorem concentrations_doses_value :
    Spec.dcovSqr (realDist fun i (_ : Fin 1) => concentrations i) (realDist fun i (_ : Fin 1) => doses i) = 100 / 2 ^ 13 := by
  unfold realDist
  rw [← exactFrom_biased (by norm_num)]
  have : exactFrom 4 false (absTerms concentrations doses).meanProd (absTerms concentrations doses).aAxis
      (absTerms concentrations doses).aTotal (absTerms concentrations doses).bAxis (absTerms concentrations doses).bTotal
      = 100 / 2 ^ 13 := by decide +kernel
  rw [this]
  norm_num

/-- C137: so the squared correlation of two rows with the same two groups is infinite instead of one. -/
theorem C137_equal_groups_fail (h64 : IsFloat64 sqrt sum dot) (hs : F16.IsSqrt sqrt16)
    {argsort : (Fin 4 → ℚ) → Equiv.Perm (Fin 4)} (hsort : ∀ v : Fin 4 → ℚ, Monotone fun i => v (argsort v i)) :
    Arith.rowCorrelationHalf (binary64 sqrt sum dot) sqrt16 false argsort concentrations doses = .ok (inf false) ∧
      (∀ i, F16.round (concentrations i) = fin (concentrations i)) ∧ (∀ i, F16.round (doses i) = fin (doses i)) ∧
      Spec.dcorSqr (realDist fun i (_ : Fin 1) => concentrations i) (realDist fun i (_ : Fin 1) => doses i) = 1 := by
  refine ⟨C137_infinite_fails (X := 1 / 4096) (Y := 200) h64 hs (by norm_num) hsort (by decide +kernel) (by decide +kernel)
    (by decide +kernel) (by decide +kernel) (by norm_num) (by rw [concentrations_value]; norm_num) (by rw [doses_value]; norm_num)
    (by rw [concentrations_doses_value]; norm_num) (by rw [concentrations_doses_value]; norm_num), by decide +kernel,
    by decide +kernel, ?_⟩
  unfold Spec.dcorSqr
  rw [concentrations_value, doses_value, concentrations_doses_value, ratio_pos (by norm_num) (by norm_num)]
  have e1 : √((1 : ℝ) / 2 ^ 26) = 1 / 2 ^ 13 := by
    rw [show ((1 : ℝ) / 2 ^ 26) = (1 / 2 ^ 13) ^ 2 by norm_num, Real.sqrt_sq (by norm_num)]
  have e2 : √(10000 : ℝ) = 100 := by
    rw [show (10000 : ℝ) = 100 ^ 2 by norm_num, Real.sqrt_sq (by norm_num)]
  rw [e1, e2]
  norm_num

/-! ### Cases that meet the hypotheses -/

example := C137_not_nan_partial (sqrt16 := F64.sqrtSeq) float64_seq.1 (n := 4) (by norm_num) true (argsort := fun v => Tuple.sort v)
  (fun v => Tuple.monotone_sort v) (x := heights) (y := altitudes) (by decide +kernel) (by decide +kernel) (by norm_num)

example := C137_left_fails (sqrt16 := F64.sqrtSeq) (X := 2000) float64_seq.1 rfl (n := 4) (by norm_num) (argsort := fun v => Tuple.sort v)
  (fun v => Tuple.monotone_sort v) (x := altitudes) (y := heights) (by decide +kernel) (by decide +kernel) (by decide +kernel)
  (by norm_num) (by rw [altitudes_value]; norm_num)

example := C137_right_fails (sqrt16 := F64.sqrtSeq) (Y := 2000) float64_seq.1 rfl (n := 4) (by norm_num) (argsort := fun v => Tuple.sort v)
  (fun v => Tuple.monotone_sort v) (x := heights) (y := altitudes) (by decide +kernel) (by decide +kernel) (by decide +kernel)
  (by norm_num) (by rw [altitudes_value]; norm_num)

example := C137_unbiased_left_fails (sqrt16 := F64.sqrtSeq) (X := 2000) float64_seq.1 rfl (n := 4) (by norm_num)
  (argsort := fun v => Tuple.sort v) (fun v => Tuple.monotone_sort v) (x := altitudes) (y := heights) (by decide +kernel)
  (by decide +kernel) (by decide +kernel) (by norm_num) (by rw [altitudes_value_unbiased]; norm_num)

example := C137_self_fails (sqrt16 := F64.sqrtSeq) float64_seq.1 rfl (argsort := fun v => Tuple.sort v)
  (fun v => Tuple.monotone_sort v)

example := C137_unbiased_right_fails (sqrt16 := F64.sqrtSeq) (Y := 2000) float64_seq.1 rfl (n := 4) (by norm_num)
  (argsort := fun v => Tuple.sort v) (fun v => Tuple.monotone_sort v) (x := heights) (y := altitudes) (by decide +kernel)
  (by decide +kernel) (by decide +kernel) (by norm_num) (by rw [altitudes_value_unbiased]; norm_num)

example := C137_accuracy_partial (M := 302) float64_seq.1 sqrtSeq_half (n := 4) (by norm_num) (argsort := fun v => Tuple.sort v)
  (fun v => Tuple.monotone_sort v) (x := heights) (y := heights) (by decide +kernel) (by decide +kernel) (by decide +kernel)
  (by decide +kernel) (by norm_num) rfl (by rw [heights_value]; norm_num) (by rw [heights_value]; norm_num)
  (by rw [heights_value]; norm_num) (by rw [heights_value]; norm_num)

example := C137_unbiased_accuracy_partial (M := 302) float64_seq.1 sqrtSeq_half (n := 4) (by norm_num)
  (argsort := fun v => Tuple.sort v) (fun v => Tuple.monotone_sort v) (x := heights) (y := heights) (by decide +kernel)
  (by decide +kernel) (by decide +kernel) (by decide +kernel) (by norm_num) rfl (by rw [heights_value_unbiased]; norm_num)
  (by rw [heights_value_unbiased]; norm_num) (by rw [heights_value_unbiased]; norm_num) (by rw [heights_value_unbiased]; norm_num)

example := C137_infinite_fails (X := 1 / 4096) (Y := 200) float64_seq.1 sqrtSeq_half (n := 4) (by norm_num)
  (argsort := fun v => Tuple.sort v) (fun v => Tuple.monotone_sort v) (x := concentrations) (y := doses) (by decide +kernel)
  (by decide +kernel) (by decide +kernel) (by decide +kernel) (by norm_num) (by rw [concentrations_value]; norm_num)
  (by rw [doses_value]; norm_num) (by rw [concentrations_doses_value]; norm_num) (by rw [concentrations_doses_value]; norm_num)

example := C137_equal_groups_fail float64_seq.1 sqrtSeq_half (argsort := fun v => Tuple.sort v) (fun v => Tuple.monotone_sort v)

example := C137_tiny_self_fails (sqrt16 := F64.sqrtSeq) (X := 1 / 4096) float64_seq.1 (n := 4) (by norm_num)
  (argsort := fun v => Tuple.sort v) (fun v => Tuple.monotone_sort v) (x := concentrations) (by decide +kernel) (by decide +kernel)
  (by norm_num) (by rw [concentrations_value]; norm_num) (by rw [concentrations_value]; norm_num)

end Dcor.Props

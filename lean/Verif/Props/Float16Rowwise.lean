/-
Property C136: the row-wise covariance of samples of dtype `float16`.
-/
import Verif.Model.Float16Rowwise
import Verif.Proofs.Round16Range
import Verif.Props.Float16

namespace Dcor.Props

open Dcor F64

variable {sqrt : ℚ → ℚ} {sum : List ℚ → ℚ} {dot : List (ℚ × ℚ) → ℚ} {n : ℕ}

/-- C136, the part that holds: an entry of the row-wise covariance of `float16` samples is within one rounding to `float16` of a value
within the error bound of `float64`, if this is below 65520. Missing: larger values, see `C136_large_fail`. -/
theorem C136_accuracy_partial (h64 : IsFloat64 sqrt sum dot) (hn : 3 < n)
    {argsort : (Fin n → ℚ) → Equiv.Perm (Fin n)} (hsort : ∀ v : Fin n → ℚ, Monotone fun i => v (argsort v i))
    {x y : Fin n → ℚ} {X Y : ℚ} (fx : ∀ i, F16.round (x i) = fin (x i)) (fy : ∀ i, F16.round (y i) = fin (y i))
    (hx : ∀ i, |x i| ≤ X) (hy : ∀ i, |y i| ≤ Y) (hK : 4 * n + 22 ≤ 2 ^ 53)
    (hc : Spec.dcovSqr (realDist fun i (_ : Fin 1) => x i) (realDist fun i (_ : Fin 1) => y i)
      + 328 * (4 * n + 22) * (X * Y) / 2 ^ 53 < 65520) :
    ∃ r, Arith.rowCovarianceHalf (binary64 sqrt sum dot) false argsort x y = .ok (fin r) ∧
      |(r : ℝ) - Spec.dcovSqr (realDist fun i (_ : Fin 1) => x i) (realDist fun i (_ : Fin 1) => y i)|
        ≤ 329 * (4 * n + 22) * (X * Y) / 2 ^ 53
          + Spec.dcovSqr (realDist fun i (_ : Fin 1) => x i) (realDist fun i (_ : Fin 1) => y i) / 2 ^ 11 + 1 / 2 ^ 25 := by
  obtain ⟨s, e, e1, -⟩ := C73_avl_accuracy h64 hn true hsort (fun i => F16.round64_of_round (fx i))
    (fun i => F16.round64_of_round (fy i)) hx hy hK
  have hn0 : 0 < n := by omega
  have hX : 0 ≤ X := (abs_nonneg _).trans (hx ⟨0, hn0⟩)
  have hY : 0 ≤ Y := (abs_nonneg _).trans (hy ⟨0, hn0⟩)
  have h0 : 0 ≤ Spec.dcovSqr (realDist fun i (_ : Fin 1) => x i) (realDist fun i (_ : Fin 1) => y i) :=
    Spec.dcovSqr_nonneg _ _ one_pos one_le_two
  generalize Spec.dcovSqr (realDist fun i (_ : Fin 1) => x i) (realDist fun i (_ : Fin 1) => y i) = c at *
  have hXY' : (0 : ℝ) ≤ (4 * n + 22) * (X * Y) := by
    have : (0 : ℝ) ≤ (X : ℝ) * Y := by exact_mod_cast mul_nonneg hX hY
    positivity
  have e328 : (328 : ℝ) * (4 * n + 22) * (X * Y) = 328 * ((4 * n + 22) * (X * Y)) := by ring
  have e329 : (329 : ℝ) * (4 * n + 22) * (X * Y) = 329 * ((4 * n + 22) * (X * Y)) := by ring
  rw [e328] at e1 hc
  rw [e329]
  generalize ((4 : ℝ) * n + 22) * (X * Y) = w at *
  have h1 := abs_le.1 e1
  have hw : 0 ≤ 328 * w / 2 ^ 53 := by positivity
  have h3 : |(s.cov : ℝ)| ≤ c + 328 * w / 2 ^ 53 := abs_le.2 ⟨by linarith, by linarith⟩
  have hs : |s.cov| < 65520 := by
    have := h3.trans_lt hc
    exact_mod_cast this
  obtain ⟨r, er, hr⟩ := F16.round_close hs
  refine ⟨r, by rw [Arith.rowCovarianceHalf, rowCovariance_of_stats _ e]; exact congrArg Except.ok er, ?_⟩
  have hr' : |(r : ℝ) - s.cov| ≤ |(s.cov : ℝ)| / 2 ^ 11 + 1 / 2 ^ 25 := by
    have := (Rat.cast_le (K := ℝ)).2 hr
    push_cast at this
    exact this
  have h4 : |(s.cov : ℝ)| / 2 ^ 11 ≤ (c + 328 * w / 2 ^ 53) / 2 ^ 11 := by gcongr
  have h5 := abs_sub_le (r : ℝ) s.cov c
  have h6 : (c + 328 * w / 2 ^ 53) / 2 ^ 11 = c / 2 ^ 11 + 328 * w / 2 ^ 53 / 2 ^ 11 := by ring
  have h7 : 328 * w / 2 ^ 53 / 2 ^ 11 ≤ w / 2 ^ 53 := by
    have : 0 ≤ w / 2 ^ 53 := by positivity
    have e : 328 * w / 2 ^ 53 / 2 ^ 11 = 328 / 2 ^ 11 * (w / 2 ^ 53) := by ring
    rw [e]
    calc _ ≤ 1 * (w / 2 ^ 53) := mul_le_mul_of_nonneg_right (by norm_num) this
      _ = _ := one_mul _
  have h8 : 329 * w / 2 ^ 53 = 328 * w / 2 ^ 53 + w / 2 ^ 53 := by ring
  linarith

/-- C136: if the squared distance covariance is larger, the entry is infinite. -/
theorem C136_large_fail (h64 : IsFloat64 sqrt sum dot) (hn : 3 < n)
    {argsort : (Fin n → ℚ) → Equiv.Perm (Fin n)} (hsort : ∀ v : Fin n → ℚ, Monotone fun i => v (argsort v i))
    {x y : Fin n → ℚ} {X Y : ℚ} (fx : ∀ i, F16.round (x i) = fin (x i)) (fy : ∀ i, F16.round (y i) = fin (y i))
    (hx : ∀ i, |x i| ≤ X) (hy : ∀ i, |y i| ≤ Y) (hK : 4 * n + 22 ≤ 2 ^ 53)
    (hc : 65520 + 328 * (4 * n + 22) * (X * Y) / 2 ^ 53
      ≤ Spec.dcovSqr (realDist fun i (_ : Fin 1) => x i) (realDist fun i (_ : Fin 1) => y i)) :
    Arith.rowCovarianceHalf (binary64 sqrt sum dot) false argsort x y = .ok (inf false) := by
  obtain ⟨s, e, e1, -⟩ := C73_avl_accuracy h64 hn true hsort (fun i => F16.round64_of_round (fx i))
    (fun i => F16.round64_of_round (fy i)) hx hy hK
  have h1 := abs_le.1 e1
  have hs : (65520 : ℚ) ≤ s.cov := by
    have : (65520 : ℝ) ≤ s.cov := by linarith
    exact_mod_cast this
  rw [Arith.rowCovarianceHalf, rowCovariance_of_stats _ e]
  exact congrArg Except.ok (F16.round_top hs)

/-- C136, the part that holds: an entry of the row-wise bias-corrected covariance of `float16` samples is within one rounding to `float16` of a value
within the error bound of `float64`, if this is below 65520. Missing: larger values, see `C136_unbiased_large_fail`. -/
theorem C136_unbiased_accuracy_partial (h64 : IsFloat64 sqrt sum dot) (hn : 3 < n)
    {argsort : (Fin n → ℚ) → Equiv.Perm (Fin n)} (hsort : ∀ v : Fin n → ℚ, Monotone fun i => v (argsort v i))
    {x y : Fin n → ℚ} {X Y : ℚ} (fx : ∀ i, F16.round (x i) = fin (x i)) (fy : ∀ i, F16.round (y i) = fin (y i))
    (hx : ∀ i, |x i| ≤ X) (hy : ∀ i, |y i| ≤ Y) (hK : 4 * n + 22 ≤ 2 ^ 53)
    (hc : |Spec.uDcovSqr (realDist fun i (_ : Fin 1) => x i) (realDist fun i (_ : Fin 1) => y i)|
      + 2368 * (4 * n + 22) * (X * Y) / 2 ^ 53 < 65520) :
    ∃ r, Arith.rowCovarianceHalf (binary64 sqrt sum dot) true argsort x y = .ok (fin r) ∧
      |(r : ℝ) - Spec.uDcovSqr (realDist fun i (_ : Fin 1) => x i) (realDist fun i (_ : Fin 1) => y i)|
        ≤ 2370 * (4 * n + 22) * (X * Y) / 2 ^ 53
          + |Spec.uDcovSqr (realDist fun i (_ : Fin 1) => x i) (realDist fun i (_ : Fin 1) => y i)| / 2 ^ 11 + 1 / 2 ^ 25 := by
  obtain ⟨s, e, e1, -⟩ := C73_avl_accuracy_unbiased h64 hn true hsort (fun i => F16.round64_of_round (fx i))
    (fun i => F16.round64_of_round (fy i)) hx hy hK
  have hn0 : 0 < n := by omega
  have hX : 0 ≤ X := (abs_nonneg _).trans (hx ⟨0, hn0⟩)
  have hY : 0 ≤ Y := (abs_nonneg _).trans (hy ⟨0, hn0⟩)
  generalize Spec.uDcovSqr (realDist fun i (_ : Fin 1) => x i) (realDist fun i (_ : Fin 1) => y i) = c at *
  have hXY' : (0 : ℝ) ≤ (4 * n + 22) * (X * Y) := by
    have : (0 : ℝ) ≤ (X : ℝ) * Y := by exact_mod_cast mul_nonneg hX hY
    positivity
  have e2368 : (2368 : ℝ) * (4 * n + 22) * (X * Y) = 2368 * ((4 * n + 22) * (X * Y)) := by ring
  have e2370 : (2370 : ℝ) * (4 * n + 22) * (X * Y) = 2370 * ((4 * n + 22) * (X * Y)) := by ring
  rw [e2368] at e1 hc
  rw [e2370]
  generalize ((4 : ℝ) * n + 22) * (X * Y) = w at *
  have h1 := abs_le.1 e1
  have hw : 0 ≤ 2368 * w / 2 ^ 53 := by positivity
  have h3 : |(s.cov : ℝ)| ≤ |c| + 2368 * w / 2 ^ 53 := 
    abs_le.2 ⟨by linarith [neg_abs_le c], by linarith [le_abs_self c]⟩
  have hs : |s.cov| < 65520 := by
    have := h3.trans_lt hc
    exact_mod_cast this
  obtain ⟨r, er, hr⟩ := F16.round_close hs
  refine ⟨r, by rw [Arith.rowCovarianceHalf, rowCovariance_of_stats _ e]; exact congrArg Except.ok er, ?_⟩
  have hr' : |(r : ℝ) - s.cov| ≤ |(s.cov : ℝ)| / 2 ^ 11 + 1 / 2 ^ 25 := by
    have := (Rat.cast_le (K := ℝ)).2 hr
    push_cast at this
    exact this
  have h4 : |(s.cov : ℝ)| / 2 ^ 11 ≤ (|c| + 2368 * w / 2 ^ 53) / 2 ^ 11 := by gcongr
  have h5 := abs_sub_le (r : ℝ) s.cov c
  have h6 : (|c| + 2368 * w / 2 ^ 53) / 2 ^ 11 = |c| / 2 ^ 11 + 2368 * w / 2 ^ 53 / 2 ^ 11 := by ring
  have h7 : 2368 * w / 2 ^ 53 / 2 ^ 11 ≤ 2 * (w / 2 ^ 53) := by
    have : 0 ≤ w / 2 ^ 53 := by positivity
    have e : 2368 * w / 2 ^ 53 / 2 ^ 11 = 2368 / 2 ^ 11 * (w / 2 ^ 53) := by ring
    rw [e]
    exact mul_le_mul_of_nonneg_right (by norm_num) this
  have h8 : 2370 * w / 2 ^ 53 = 2368 * w / 2 ^ 53 + 2 * (w / 2 ^ 53) := by ring
  linarith

/-- C136: the same for the bias-corrected estimator. -/
theorem C136_unbiased_large_fail (h64 : IsFloat64 sqrt sum dot) (hn : 3 < n)
    {argsort : (Fin n → ℚ) → Equiv.Perm (Fin n)} (hsort : ∀ v : Fin n → ℚ, Monotone fun i => v (argsort v i))
    {x y : Fin n → ℚ} {X Y : ℚ} (fx : ∀ i, F16.round (x i) = fin (x i)) (fy : ∀ i, F16.round (y i) = fin (y i))
    (hx : ∀ i, |x i| ≤ X) (hy : ∀ i, |y i| ≤ Y) (hK : 4 * n + 22 ≤ 2 ^ 53)
    (hc : 65520 + 2368 * (4 * n + 22) * (X * Y) / 2 ^ 53
      ≤ Spec.uDcovSqr (realDist fun i (_ : Fin 1) => x i) (realDist fun i (_ : Fin 1) => y i)) :
    Arith.rowCovarianceHalf (binary64 sqrt sum dot) true argsort x y = .ok (inf false) := by
  obtain ⟨s, e, e1, -⟩ := C73_avl_accuracy_unbiased h64 hn true hsort (fun i => F16.round64_of_round (fx i))
    (fun i => F16.round64_of_round (fy i)) hx hy hK
  have h1 := abs_le.1 e1
  have hs : (65520 : ℚ) ≤ s.cov := by
    have : (65520 : ℝ) ≤ s.cov := by linarith
    exact_mod_cast this
  rw [Arith.rowCovarianceHalf, rowCovariance_of_stats _ e]
  exact congrArg Except.ok (F16.round_top hs)

/-- C136: if the product of two observations that belong together is too large, but the covariance is not, the row-wise function
gives a number that is close to the covariance, and the function itself infinity or NaN. -/
theorem C136_rowwise_differs (h64 : IsFloat64 sqrt sum dot) (hn : 3 < n)
    {argsort : (Fin n → ℚ) → Equiv.Perm (Fin n)} (hsort : ∀ v : Fin n → ℚ, Monotone fun i => v (argsort v i))
    {x y : Fin n → ℚ} {X Y : ℚ} (fx : ∀ i, F16.round (x i) = fin (x i)) (fy : ∀ i, F16.round (y i) = fin (y i))
    (hx : ∀ i, |x i| ≤ X) (hy : ∀ i, |y i| ≤ Y) (hK : 4 * n + 22 ≤ 2 ^ 53)
    (hc : Spec.dcovSqr (realDist fun i (_ : Fin 1) => x i) (realDist fun i (_ : Fin 1) => y i)
      + 328 * (4 * n + 22) * (X * Y) / 2 ^ 53 < 65520) {i : Fin n} (hi : 65520 ≤ |x i * y i|)
    {sqrt' : F64 → F64} {sum' sum16 : List F64 → F64} {dot' : List (F64 × F64) → F64} (h16 : F16.IsSum sum16)
    (argsort' : (Fin n → F64) → Equiv.Perm (Fin n)) :
    (∃ r, Arith.rowCovarianceHalf (binary64 sqrt sum dot) false argsort x y = .ok (fin r) ∧
      |(r : ℝ) - Spec.dcovSqr (realDist fun i (_ : Fin 1) => x i) (realDist fun i (_ : Fin 1) => y i)|
        ≤ 329 * (4 * n + 22) * (X * Y) / 2 ^ 53
          + Spec.dcovSqr (realDist fun i (_ : Fin 1) => x i) (realDist fun i (_ : Fin 1) => y i) / 2 ^ 11 + 1 / 2 ^ 25) ∧
      ∃ s, Arith.avlStatsHalf (ieee16 sum16) (ieee64 sqrt' sum' dot') false argsort' (fun i => fin (x i)) (fun i => fin (y i)) = .ok s ∧
        ¬ s.cov.Finite :=
  ⟨C136_accuracy_partial h64 hn hsort fx fy hx hy hK hc, C134_covariance_fails h16 hn false argsort' rfl rfl hi⟩

/-! ### Cases that meet the hypotheses -/

/-- Two groups of heights. -/
def heights : Fin 4 → ℚ := ![300, 300, 302, 302]

theorem heights_value : Spec.dcovSqr (realDist fun i (_ : Fin 1) => heights i) (realDist fun i (_ : Fin 1) => heights i) = 1 := by
  unfold realDist
  rw [← exactFrom_biased (by norm_num)]
  have : exactFrom 4 false (absTerms heights heights).meanProd (absTerms heights heights).aAxis (absTerms heights heights).aTotal
      (absTerms heights heights).bAxis (absTerms heights heights).bTotal = 1 := by decide +kernel
  rw [this]
  norm_num

example := C136_accuracy_partial (X := 302) (Y := 302) float64_seq.1 (by norm_num) (argsort := fun v => Tuple.sort v)
  (fun v => Tuple.monotone_sort v) (x := heights) (y := heights) (by decide +kernel) (by decide +kernel) (by decide +kernel)
  (by decide +kernel) (by norm_num) (by rw [heights_value]; norm_num)

example {argsort' : (Fin 4 → F64) → Equiv.Perm (Fin 4)} := C136_rowwise_differs (X := 302) (Y := 302) float64_seq.1 (by norm_num)
  (argsort := fun v => Tuple.sort v) (fun v => Tuple.monotone_sort v) (x := heights) (y := heights) (by decide +kernel)
  (by decide +kernel) (by decide +kernel) (by decide +kernel) (by norm_num) (by rw [heights_value]; norm_num) (i := 3)
  (by decide +kernel) (sqrt' := sqrtSeq) (sum' := sumSeq) (dot' := dotSeq) F16.sumSeq_isSum argsort'

theorem heights_value_unbiased :
    Spec.uDcovSqr (realDist fun i (_ : Fin 1) => heights i) (realDist fun i (_ : Fin 1) => heights i) = 8 / 3 := by
  unfold realDist
  rw [← exactFrom_unbiased (by norm_num)]
  have : exactFrom 4 true (absTerms heights heights).meanProd (absTerms heights heights).aAxis (absTerms heights heights).aTotal
      (absTerms heights heights).bAxis (absTerms heights heights).bTotal = 8 / 3 := by decide +kernel
  rw [this]
  norm_num

example := C136_unbiased_accuracy_partial (X := 302) (Y := 302) float64_seq.1 (by norm_num) (argsort := fun v => Tuple.sort v)
  (fun v => Tuple.monotone_sort v) (x := heights) (y := heights) (by decide +kernel) (by decide +kernel) (by decide +kernel)
  (by decide +kernel) (by norm_num) (by rw [heights_value_unbiased]; norm_num)

/-- Two groups of altitudes. -/
def altitudes : Fin 4 → ℚ := ![0, 0, 2000, 2000]

theorem altitudes_value :
    Spec.dcovSqr (realDist fun i (_ : Fin 1) => altitudes i) (realDist fun i (_ : Fin 1) => altitudes i) = 1000000 := by
  unfold realDist
  rw [← exactFrom_biased (by norm_num)]
  have : exactFrom 4 false (absTerms altitudes altitudes).meanProd (absTerms altitudes altitudes).aAxis
      (absTerms altitudes altitudes).aTotal (absTerms altitudes altitudes).bAxis (absTerms altitudes altitudes).bTotal = 1000000 := by
    decide +kernel
  rw [this]
  norm_num

example := C136_large_fail (X := 2000) (Y := 2000) float64_seq.1 (by norm_num) (argsort := fun v => Tuple.sort v)
  (fun v => Tuple.monotone_sort v) (x := altitudes) (y := altitudes) (by decide +kernel) (by decide +kernel) (by decide +kernel)
  (by decide +kernel) (by norm_num) (by rw [altitudes_value]; norm_num)

theorem altitudes_value_unbiased :
    Spec.uDcovSqr (realDist fun i (_ : Fin 1) => altitudes i) (realDist fun i (_ : Fin 1) => altitudes i) = 8000000 / 3 := by
  unfold realDist
  rw [← exactFrom_unbiased (by norm_num)]
  have : exactFrom 4 true (absTerms altitudes altitudes).meanProd (absTerms altitudes altitudes).aAxis
      (absTerms altitudes altitudes).aTotal (absTerms altitudes altitudes).bAxis (absTerms altitudes altitudes).bTotal = 8000000 / 3 := by
    decide +kernel
  rw [this]
  norm_num

example := C136_unbiased_large_fail (X := 2000) (Y := 2000) float64_seq.1 (by norm_num) (argsort := fun v => Tuple.sort v)
  (fun v => Tuple.monotone_sort v) (x := altitudes) (y := altitudes) (by decide +kernel) (by decide +kernel) (by decide +kernel)
  (by decide +kernel) (by norm_num) (by rw [altitudes_value_unbiased]; norm_num)

end Dcor.Props

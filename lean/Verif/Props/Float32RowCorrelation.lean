/-
Property C138: the row-wise correlation of samples of dtype `float32`.
-/
import Verif.Proofs.Float32RowCorrelation
import Verif.Props.Float32Exact
import Verif.Props.FloatCorr

namespace Dcor.Props

open Dcor

variable {sqrt sqrt32 : ℚ → ℚ} {sum : List ℚ → ℚ} {dot : List (ℚ × ℚ) → ℚ} {n : ℕ}

private theorem abs_le_roots32 {a b c : ℝ} (ha : 0 ≤ a) (h : c ^ 2 ≤ a * b) : |c| ≤ √a * √b := by
  rw [← Real.sqrt_mul ha, ← Real.sqrt_sq_eq_abs]
  exact Real.sqrt_le_sqrt h

private theorem le_roots32 {a b m : ℝ} (hm : 0 ≤ m) (h1 : m ≤ a) (h2 : m ≤ b) : m ≤ √a * √b := by
  rw [← Real.sqrt_mul (hm.trans h1)]
  apply Real.le_sqrt_of_sq_le
  nlinarith

private theorem ratio_pos32 {c a b : ℝ} (ha : 0 < a) (hb : 0 < b) : Spec.ratio c a b = c / (√a * √b) := by
  unfold Spec.ratio
  rw [if_neg (mul_pos ha hb).ne', abs_of_pos (mul_pos ha hb), Real.sqrt_mul ha.le]

/-- The quotient of numbers with the errors of the covariances. -/
private theorem quotient_close (hs : IsSqrt32 sqrt32) {a b c η r : ℝ} {a' b' c' : ℚ} (h0 : 1 / 2 ^ 24 ≤ r) (hr : r ≤ 1 / 2 ^ 11)
    (hη : 0 < η) (ha : η ≤ r * a) (hb : η ≤ r * b) (hc : c ^ 2 ≤ a * b) (ea : |(a' : ℝ) - a| ≤ η + |a| / 2 ^ 24)
    (eb : |(b' : ℝ) - b| ≤ η + |b| / 2 ^ 24) (ec : |(c' : ℝ) - c| ≤ η + |c| / 2 ^ 24) :
    |((binary32s sqrt32).rowQuotient c' a' b' : ℝ) - Spec.ratio c a b| ≤ 26 * r := by
  have r0 : 0 < r := lt_of_lt_of_le (by norm_num) h0
  have ha0 : 0 < a := pos_of_mul_pos_right (hη.trans_le ha) r0.le
  have hb0 : 0 < b := pos_of_mul_pos_right (hη.trans_le hb) r0.le
  rw [abs_of_pos ha0] at ea
  rw [abs_of_pos hb0] at eb
  have hc1 := abs_le_roots32 ha0.le hc
  have hm := le_roots32 (m := η / r) (by positivity) ((div_le_iff₀' r0).2 ha) ((div_le_iff₀' r0).2 hb)
  rw [div_le_iff₀' r0] at hm
  have g : ∀ z : ℝ, 0 ≤ z → z * (1 / 2 ^ 24) ≤ z * r := fun z hz => mul_le_mul_of_nonneg_left h0 hz
  have ga := g a ha0.le
  have gb := g b hb0.le
  have gc := g (√a * √b) (by positivity)
  have := rowQuotient32_close hs (δ := 2 * r) (c' := c') (a' := a') (b' := b') (by linarith) (by linarith) ha0 hb0 hc1
    (by linarith) (by linarith) (by linarith)
  rw [ratio_pos32 ha0 hb0]
  linarith

/-- C138: if the error bound of `float64` is at most a fraction `r` of both squared distance variances, the entry is within `26 * r` of
the squared distance correlation. -/
theorem C138_accuracy (h64 : IsFloat64 sqrt sum dot) (hs : IsSqrt32 sqrt32) (hn : 3 < n)
    {argsort : (Fin n → ℚ) → Equiv.Perm (Fin n)} (hsort : ∀ v : Fin n → ℚ, Monotone fun i => v (argsort v i))
    {x y : Fin n → ℚ} {M : ℚ} {r : ℝ} (fx : ∀ i, round32 (x i) = x i) (fy : ∀ i, round32 (y i) = y i)
    (hM : 0 < M) (hx : ∀ i, |x i| ≤ M) (hy : ∀ i, |y i| ≤ M) (hK : 4 * n + 22 ≤ 2 ^ 53) (h0 : 1 / 2 ^ 24 ≤ r) (hr : r ≤ 1 / 2 ^ 11)
    (ha : 329 * (4 * n + 22) * (M * M) / 2 ^ 53
      ≤ r * Spec.dcovSqr (realDist fun i (_ : Fin 1) => x i) (realDist fun i (_ : Fin 1) => x i))
    (hb : 329 * (4 * n + 22) * (M * M) / 2 ^ 53
      ≤ r * Spec.dcovSqr (realDist fun i (_ : Fin 1) => y i) (realDist fun i (_ : Fin 1) => y i)) :
    ∃ z : ℚ, Arith.rowCorrelationSingle (binary64 sqrt sum dot) sqrt32 false argsort x y = .ok z ∧
      |(z : ℝ) - Spec.dcorSqr (realDist fun i (_ : Fin 1) => x i) (realDist fun i (_ : Fin 1) => y i)| ≤ 26 * r := by
  have weak : ∀ c : ℝ, c / 2 ^ 24 ≤ |c| / 2 ^ 24 := fun c => by gcongr; exact le_abs_self c
  obtain ⟨c', ec, hc'⟩ := C113_rowwise_accuracy h64 hn hsort fx fy hx hy hK
  obtain ⟨a', ea, ha'⟩ := C113_rowwise_accuracy h64 hn hsort fx fx hx hx hK
  obtain ⟨b', eb, hb'⟩ := C113_rowwise_accuracy h64 hn hsort fy fy hy hy hK
  unfold Arith.rowCorrelationSingle
  rw [ec, ea, eb]
  have hM' : (0 : ℝ) < M := by exact_mod_cast hM
  exact ⟨_, rfl, quotient_close hs h0 hr (by positivity) ha hb (Spec.dcovSqr_cauchy _ _)
    (ha'.trans (by linarith [weak (Spec.dcovSqr (realDist fun i (_ : Fin 1) => x i) (realDist fun i (_ : Fin 1) => x i))]))
    (hb'.trans (by linarith [weak (Spec.dcovSqr (realDist fun i (_ : Fin 1) => y i) (realDist fun i (_ : Fin 1) => y i))]))
    (hc'.trans (by linarith [weak (Spec.dcovSqr (realDist fun i (_ : Fin 1) => x i) (realDist fun i (_ : Fin 1) => y i))]))⟩

/-- The row-wise bias-corrected covariance of `float32` samples. -/
theorem C138_unbiased_covariance (h64 : IsFloat64 sqrt sum dot) (hn : 3 < n)
    {argsort : (Fin n → ℚ) → Equiv.Perm (Fin n)} (hsort : ∀ v : Fin n → ℚ, Monotone fun i => v (argsort v i))
    {x y : Fin n → ℚ} {X Y : ℚ} (fx : ∀ i, round32 (x i) = x i) (fy : ∀ i, round32 (y i) = y i)
    (hx : ∀ i, |x i| ≤ X) (hy : ∀ i, |y i| ≤ Y) (hK : 4 * n + 22 ≤ 2 ^ 53) :
    ∃ r, Arith.rowCovarianceSingle (binary64 sqrt sum dot) round32 true argsort x y = .ok r ∧
      |(r : ℝ) - Spec.uDcovSqr (realDist fun i (_ : Fin 1) => x i) (realDist fun i (_ : Fin 1) => y i)|
        ≤ 2369 * (4 * n + 22) * (X * Y) / 2 ^ 53
          + |Spec.uDcovSqr (realDist fun i (_ : Fin 1) => x i) (realDist fun i (_ : Fin 1) => y i)| / 2 ^ 24 := by
  obtain ⟨s, e, e1, -⟩ := C73_avl_accuracy_unbiased h64 hn true hsort (fun i => round64_of_round32 (fx i))
    (fun i => round64_of_round32 (fy i)) hx hy hK
  have hn0 : 0 < n := by omega
  have hX : 0 ≤ X := (abs_nonneg _).trans (hx ⟨0, hn0⟩)
  have hY : 0 ≤ Y := (abs_nonneg _).trans (hy ⟨0, hn0⟩)
  refine ⟨round32 s.cov, by rw [Arith.rowCovarianceSingle, rowCovariance_of_stats _ e]; rfl, ?_⟩
  have hr := round32_real s.cov
  generalize Spec.uDcovSqr (realDist fun i (_ : Fin 1) => x i) (realDist fun i (_ : Fin 1) => y i) = c at *
  have hw : (0 : ℝ) ≤ (4 * n + 22) * (X * Y) / 2 ^ 53 := by
    have : (0 : ℝ) ≤ (X : ℝ) * Y := by exact_mod_cast mul_nonneg hX hY
    positivity
  have e2368 : (2368 : ℝ) * (4 * n + 22) * (X * Y) / 2 ^ 53 = 2368 * ((4 * n + 22) * (X * Y) / 2 ^ 53) := by ring
  have e2369 : (2369 : ℝ) * (4 * n + 22) * (X * Y) / 2 ^ 53 = 2369 * ((4 * n + 22) * (X * Y) / 2 ^ 53) := by ring
  rw [e2368] at e1
  rw [e2369]
  generalize ((4 : ℝ) * n + 22) * (X * Y) / 2 ^ 53 = w at *
  have h1 := abs_le.1 e1
  have h2 := neg_abs_le c
  have h3 := le_abs_self c
  have h4 : |(s.cov : ℝ)| ≤ |c| + 2368 * w := abs_le.2 ⟨by linarith, by linarith⟩
  have h5 := abs_sub_le ((round32 s.cov : ℚ) : ℝ) s.cov c
  linarith

/-- C138: the same for the bias-corrected estimator. -/
theorem C138_unbiased_accuracy (h64 : IsFloat64 sqrt sum dot) (hs : IsSqrt32 sqrt32) (hn : 3 < n)
    {argsort : (Fin n → ℚ) → Equiv.Perm (Fin n)} (hsort : ∀ v : Fin n → ℚ, Monotone fun i => v (argsort v i))
    {x y : Fin n → ℚ} {M : ℚ} {r : ℝ} (fx : ∀ i, round32 (x i) = x i) (fy : ∀ i, round32 (y i) = y i)
    (hM : 0 < M) (hx : ∀ i, |x i| ≤ M) (hy : ∀ i, |y i| ≤ M) (hK : 4 * n + 22 ≤ 2 ^ 53) (h0 : 1 / 2 ^ 24 ≤ r) (hr : r ≤ 1 / 2 ^ 11)
    (ha : 2369 * (4 * n + 22) * (M * M) / 2 ^ 53
      ≤ r * Spec.uDcovSqr (realDist fun i (_ : Fin 1) => x i) (realDist fun i (_ : Fin 1) => x i))
    (hb : 2369 * (4 * n + 22) * (M * M) / 2 ^ 53
      ≤ r * Spec.uDcovSqr (realDist fun i (_ : Fin 1) => y i) (realDist fun i (_ : Fin 1) => y i)) :
    ∃ z : ℚ, Arith.rowCorrelationSingle (binary64 sqrt sum dot) sqrt32 true argsort x y = .ok z ∧
      |(z : ℝ) - Spec.uDcorSqr (realDist fun i (_ : Fin 1) => x i) (realDist fun i (_ : Fin 1) => y i)| ≤ 26 * r := by
  obtain ⟨c', ec, hc'⟩ := C138_unbiased_covariance h64 hn hsort fx fy hx hy hK
  obtain ⟨a', ea, ha'⟩ := C138_unbiased_covariance h64 hn hsort fx fx hx hx hK
  obtain ⟨b', eb, hb'⟩ := C138_unbiased_covariance h64 hn hsort fy fy hy hy hK
  unfold Arith.rowCorrelationSingle
  rw [ec, ea, eb]
  have hM' : (0 : ℝ) < M := by exact_mod_cast hM
  exact ⟨_, rfl, quotient_close hs h0 hr (by positivity) ha hb (uDcovSqr_cauchy hn _ _) ha' hb' hc'⟩

theorem years_value : Spec.dcovSqr (realDist fun i (_ : Fin 1) => years i) (realDist fun i (_ : Fin 1) => years i) = 89 / 64 := by
  unfold realDist
  rw [← exactFrom_biased (by norm_num)]
  have : exactFrom 4 false (absTerms years years).meanProd (absTerms years years).aAxis (absTerms years years).aTotal
      (absTerms years years).bAxis (absTerms years years).bTotal = 89 / 64 := by decide +kernel
  rw [this]
  norm_num

/-- C138: for the years of `C113_years_fail` the row-wise squared correlation with themselves is within 0.0002 of one; the function itself
returns less than 0.92. -/
theorem C138_rowwise_differs (h : IsFloat64 sqrt seqSum64 dot) (hs : IsSqrt32 sqrt32) {argsort : (Fin 4 → ℚ) → Equiv.Perm (Fin 4)}
    (hk : KeepsSorted argsort) (hsort : ∀ v : Fin 4 → ℚ, Monotone fun i => v (argsort v i)) :
    (∃ z : ℚ, Arith.rowCorrelationSingle (binary64 sqrt seqSum64 dot) sqrt32 false argsort years years = .ok z ∧
      |(z : ℝ) - 1| ≤ 2 / 10000) ∧
    ∃ s, Arith.avlStatsSingle (binary32 seqSum32) (binary64 sqrt seqSum64 dot) false argsort years years = .ok s ∧
      s.corr < 92 / 100 := by
  refine ⟨?_, ?_⟩
  · obtain ⟨z, e, hz⟩ := C138_accuracy (M := 2024) (r := 1 / 2 ^ 17) h hs (by norm_num) hsort (x := years) (y := years)
      (by decide +kernel) (by decide +kernel) (by norm_num) (by decide +kernel) (by decide +kernel) (by norm_num) (by norm_num)
      (by norm_num) (by rw [years_value]; norm_num) (by rw [years_value]; norm_num)
    refine ⟨z, e, ?_⟩
    have e1 : Spec.dcorSqr (realDist fun i (_ : Fin 1) => years i) (realDist fun i (_ : Fin 1) => years i) = 1 := by
      unfold Spec.dcorSqr
      rw [years_value, ratio_pos32 (by norm_num) (by norm_num), Real.mul_self_sqrt (by norm_num)]
      norm_num
    rw [e1] at hz
    exact hz.trans (by norm_num)
  · obtain ⟨s, e, -, -, -, -, -, hc⟩ := C113_years_fail h hk
    exact ⟨s, e, hc⟩

/-! ### Cases that meet the hypotheses -/

example := C138_accuracy (M := 2024) (r := 1 / 2 ^ 17) float64_seq.1 sqrt64_single (n := 4) (by norm_num)
  (argsort := fun v => Tuple.sort v) (fun v => Tuple.monotone_sort v) (x := years) (y := years) (by decide +kernel) (by decide +kernel)
  (by norm_num) (by decide +kernel) (by decide +kernel) (by norm_num) (by norm_num) (by norm_num) (by rw [years_value]; norm_num)
  (by rw [years_value]; norm_num)

theorem years_value_unbiased :
    Spec.uDcovSqr (realDist fun i (_ : Fin 1) => years i) (realDist fun i (_ : Fin 1) => years i) = 2 / 3 := by
  unfold realDist
  rw [← exactFrom_unbiased (by norm_num)]
  have : exactFrom 4 true (absTerms years years).meanProd (absTerms years years).aAxis (absTerms years years).aTotal
      (absTerms years years).bAxis (absTerms years years).bTotal = 2 / 3 := by decide +kernel
  rw [this]
  norm_num

example := C138_unbiased_covariance (X := 2024) (Y := 2024) float64_seq.1 (n := 4) (by norm_num)
  (argsort := fun v => Tuple.sort v) (fun v => Tuple.monotone_sort v) (x := years) (y := years) (by decide +kernel) (by decide +kernel)
  (by decide +kernel) (by decide +kernel) (by norm_num)

example := C138_unbiased_accuracy (M := 2024) (r := 1 / 2 ^ 13) float64_seq.1 sqrt64_single (n := 4) (by norm_num)
  (argsort := fun v => Tuple.sort v) (fun v => Tuple.monotone_sort v) (x := years) (y := years) (by decide +kernel) (by decide +kernel)
  (by norm_num) (by decide +kernel) (by decide +kernel) (by norm_num) (by norm_num) (by norm_num)
  (by rw [years_value_unbiased]; norm_num) (by rw [years_value_unbiased]; norm_num)

example := C138_rowwise_differs float64_seq.1 sqrt64_single (argsort := fun v => Tuple.sort v)
  (fun v hv => (Tuple.sort_eq_refl_iff_monotone).2 hv) (fun v => Tuple.monotone_sort v)

end Dcor.Props

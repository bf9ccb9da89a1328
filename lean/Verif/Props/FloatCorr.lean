/-
C84: range and accuracy of the squared distance correlation computed in `float64`.
-/
import Verif.Proofs.FloatPair
import Verif.Proofs.Nonneg
import Verif.Props.ErrorBound

namespace Dcor.Props

open Dcor

variable {sqrt : ℚ → ℚ} {sum : List ℚ → ℚ} {dot : List (ℚ × ℚ) → ℚ} {n p q : ℕ}

/-! ### The correlation can be more than one -/

/-- C84 fails: the squared distance correlation of `[0, 0.3]` and `[0, 1.7]`, computed by the naive method in any
order and with or without fused operations, is `1.0000000000000002`. -/
theorem C84_above_one (h : IsFloat64 sqrt sum dot) :
    ((binary64 sqrt sum dot).naiveStats false (fun i (_ : Fin 1) => (![0, round64 (3 / 10)] : Fin 2 → ℚ) i)
      (fun i (_ : Fin 1) => (![0, round64 (17 / 10)] : Fin 2 → ℚ) i)).corr = 1 + 1 / 2 ^ 52 := by
  have okd : PairOk (round64 (3 / 10)) (round64 (3 / 10)) (round64 (round64 (3 / 10) * round64 (3 / 10))) := by
    constructor <;> decide +kernel
  have oke : PairOk (round64 (17 / 10)) (round64 (17 / 10)) (round64 (round64 (17 / 10) * round64 (17 / 10))) := by
    constructor <;> decide +kernel
  have ok : PairOk (round64 (3 / 10)) (round64 (17 / 10)) (round64 (round64 (3 / 10) * round64 (17 / 10))) := by
    constructor <;> decide +kernel
  rw [naiveStats_pair h ok okd oke]
  dsimp only
  have hs : sqrt (round64 (round64 (round64 (3 / 10) * round64 (3 / 10)) / 4
      * (round64 (round64 (17 / 10) * round64 (17 / 10)) / 4))) = 4593671619917905 / 2 ^ 55 := by
    rw [(h.sqrt _ (by decide +kernel)).eq_of 55 4593671619917905 (by decide +kernel) (by decide +kernel)
      (by decide +kernel) (by decide +kernel)]
    decide +kernel
  rw [hs, if_neg (by rw [eqZero_iff]; norm_num)]
  decide +kernel

/-- C84 fails for `distance_correlation` too: with sums from left to right, the distance correlation of
`[1.9, 1.1, 1.6]` and `[0.57, 0.33, 0.48]` is more than `1 + 4 * 2 ** -52`. -/
theorem C84_root_above_one :
    1 + 4 / 2 ^ 52 ≤ (binary64 sqrt64 seqSum64 seqDot64).sqrtClip
      ((binary64 sqrt64 seqSum64 seqDot64).naiveStats false
        (fun i (_ : Fin 1) => (![round64 (19 / 10), round64 (11 / 10), round64 (16 / 10)] : Fin 3 → ℚ) i)
        (fun i (_ : Fin 1) => (![round64 (57 / 100), round64 (33 / 100), round64 (48 / 100)] : Fin 3 → ℚ) i)).corr := by
  decide +kernel

/-! ### Accuracy and range -/

/-- The correlation from the errors of the covariance and of the variances. -/
theorem corr_close (h : IsFloat64 sqrt sum dot) (bc : Bool) (t : Arith.AllTerms ℚ n) {c vx vy E EX EY r : ℝ}
    (hx0 : 0 < vx) (hy0 : 0 < vy) (hr : r ≤ 1 / 4) (hEE : E ^ 2 = EX * EY)
    (e1 : |(((binary64 sqrt sum dot).statsFromTerms bc t).cov : ℝ) - c| ≤ E)
    (e2 : |(((binary64 sqrt sum dot).statsFromTerms bc t).varX : ℝ) - vx| ≤ EX)
    (e3 : |(((binary64 sqrt sum dot).statsFromTerms bc t).varY : ℝ) - vy| ≤ EY)
    (hx : EX ≤ r * vx) (hy : EY ≤ r * vy) (hle : c ^ 2 ≤ vx * vy) :
    |(((binary64 sqrt sum dot).statsFromTerms bc t).corr : ℝ) - Spec.ratio c vx vy| ≤ 3 * r + 6 / 2 ^ 53 := by
  have r0 : 0 ≤ r := nonneg_of_mul_nonneg_left ((abs_nonneg _).trans (e2.trans hx)) hx0
  refine correlation_error h hx0 hy0 hr (e1.trans ?_) (e2.trans hx) (e3.trans hy) (Real.abs_le_sqrt hle)
  have hEX : 0 ≤ EX := (abs_nonneg _).trans e2
  have hEY : 0 ≤ EY := (abs_nonneg _).trans e3
  rw [← Real.sqrt_sq r0, ← Real.sqrt_mul (sq_nonneg r)]
  apply Real.le_sqrt_of_sq_le
  rw [hEE]
  calc EX * EY ≤ (r * vx) * (r * vy) := mul_le_mul hx hy hEY (by positivity)
    _ = r ^ 2 * (vx * vy) := by ring

theorem avlStats_ok {bc compiled : Bool} {argsort : (Fin n → ℚ) → Equiv.Perm (Fin n)} {x y : Fin n → ℚ}
    {s : Arith.StatsSqr ℚ} (h : (binary64 sqrt sum dot).avlStats bc compiled argsort x y = .ok s) :
    ∃ t : Arith.AllTerms ℚ n, s = (binary64 sqrt sum dot).statsFromTerms bc t := by
  unfold Arith.avlStats at h
  cases e : (binary64 sqrt sum dot).avlTerms compiled argsort x y with
  | error err => rw [e] at h; cases h
  | ok t => rw [e] at h; cases h; exact ⟨_, rfl⟩

theorem mergesortStats_ok {bc : Bool} {ge : ℚ → ℚ → Bool} {argsort : (Fin n → ℚ) → Equiv.Perm (Fin n)}
    {x y : Fin n → ℚ} {s : Arith.StatsSqr ℚ}
    (h : (binary64 sqrt sum dot).mergesortStats bc ge argsort x y = .ok s) :
    ∃ t : Arith.AllTerms ℚ n, s = (binary64 sqrt sum dot).statsFromTerms bc t := by
  unfold Arith.mergesortStats at h
  cases e : (binary64 sqrt sum dot).mergesortTerms ge argsort x y with
  | error err => rw [e] at h; cases h
  | ok t => rw [e] at h; cases h; exact ⟨_, rfl⟩

theorem corr_range {c z δ : ℝ} (h : |z - c| ≤ δ) (h0 : 0 ≤ c) (h1 : |c| ≤ 1) : -δ ≤ z ∧ z ≤ 1 + δ := by
  have := abs_le.1 h
  have := abs_le.1 h1
  constructor <;> linarith

theorem corr_range' {c z δ : ℝ} (h : |z - c| ≤ δ) (h1 : |c| ≤ 1) : |z| ≤ 1 + δ := by
  have := abs_le.1 h
  have := abs_le.1 h1
  rw [abs_le]
  constructor <;> linarith

theorem uDcovSqr_cauchy (hn : 3 < n) (a b : Fin n → Fin n → ℝ) :
    Spec.uDcovSqr a b ^ 2 ≤ Spec.uDcovSqr a a * Spec.uDcovSqr b b := by
  rw [Spec.uDcovSqr_eq_uIp, Spec.uDcovSqr_eq_uIp, Spec.uDcovSqr_eq_uIp]
  exact uIp_cauchy hn _ _

/-- C84 for the naive method, biased estimator: if the error bounds of C72 for the two variances are at most a
fraction `r ≤ 1 / 4` of the exact variances, the computed squared correlation is within `3 * r + 6 * 2 ** -53` of
the exact one, and outside of the interval from zero to one by no more than that. What is missing is the range
itself, which `C84_above_one` refutes. -/
theorem C84_naive_partial (h : IsFloat64 sqrt sum dot) (hn : 0 < n) (x : Fin n → Fin p → ℚ) (y : Fin n → Fin q → ℚ)
    {A B r : ℝ} (hA : ∀ i j, realDist x i j ≤ A) (hB : ∀ i j, realDist y i j ≤ B)
    (hK : n ^ 2 + 4 * n + max p q + 16 ≤ 2 ^ 53) (hr : r ≤ 1 / 4)
    (hx0 : 0 < Spec.dcovSqr (realDist x) (realDist x)) (hy0 : 0 < Spec.dcovSqr (realDist y) (realDist y))
    (hx : 8 * (n ^ 2 + 4 * n + max p q + 16 : ℕ) * A * A / 2 ^ 53 ≤ r * Spec.dcovSqr (realDist x) (realDist x))
    (hy : 8 * (n ^ 2 + 4 * n + max p q + 16 : ℕ) * B * B / 2 ^ 53 ≤ r * Spec.dcovSqr (realDist y) (realDist y)) :
    |(((binary64 sqrt sum dot).naiveStats false x y).corr : ℝ) - Spec.dcorSqr (realDist x) (realDist y)|
        ≤ 3 * r + 6 / 2 ^ 53 ∧
      -(3 * r + 6 / 2 ^ 53) ≤ (((binary64 sqrt sum dot).naiveStats false x y).corr : ℝ) ∧
      (((binary64 sqrt sum dot).naiveStats false x y).corr : ℝ) ≤ 1 + (3 * r + 6 / 2 ^ 53) := by
  obtain ⟨e1, e2, e3⟩ := C72_naive_accuracy_partial h hn x y hA hB hK
  have key := corr_close h false _ hx0 hy0 hr (by ring) e1 e2 e3 hx hy (Spec.dcovSqr_cauchy _ _)
  exact ⟨key, corr_range key (Spec.dcorSqr_nonneg _ _ one_pos (by norm_num)) (Spec.abs_dcorSqr_le_one _ _)⟩

/-- C84 for the naive method, bias-corrected estimator: the same with the exact range from minus one to one. -/
theorem C84_naive_unbiased_partial (h : IsFloat64 sqrt sum dot) (hn : 3 < n) (x : Fin n → Fin p → ℚ)
    (y : Fin n → Fin q → ℚ) {A B r : ℝ} (hA : ∀ i j, realDist x i j ≤ A) (hB : ∀ i j, realDist y i j ≤ B)
    (hK : n ^ 2 + 4 * n + max p q + 16 ≤ 2 ^ 53) (hr : r ≤ 1 / 4)
    (hx0 : 0 < Spec.uDcovSqr (realDist x) (realDist x)) (hy0 : 0 < Spec.uDcovSqr (realDist y) (realDist y))
    (hx : 36 * (n ^ 2 + 4 * n + max p q + 16 : ℕ) * A * A / 2 ^ 53 ≤ r * Spec.uDcovSqr (realDist x) (realDist x))
    (hy : 36 * (n ^ 2 + 4 * n + max p q + 16 : ℕ) * B * B / 2 ^ 53 ≤ r * Spec.uDcovSqr (realDist y) (realDist y)) :
    |(((binary64 sqrt sum dot).naiveStats true x y).corr : ℝ) - Spec.uDcorSqr (realDist x) (realDist y)|
        ≤ 3 * r + 6 / 2 ^ 53 ∧
      |(((binary64 sqrt sum dot).naiveStats true x y).corr : ℝ)| ≤ 1 + (3 * r + 6 / 2 ^ 53) := by
  have hn0 : 0 < n := by omega
  obtain ⟨e1, e2, e3⟩ := C72_naive_accuracy_unbiased_partial h hn x y hA hB hK
  have key := corr_close h true _ hx0 hy0 hr (by ring) e1 e2 e3 hx hy (uDcovSqr_cauchy hn _ _)
  exact ⟨key, corr_range' key (Spec.abs_uDcorSqr_le_one hn _ _)⟩

/-- C84 for the AVL method, biased estimator; `X` and `Y` bound the observations, as in C73. -/
theorem C84_avl_partial (h : IsFloat64 sqrt sum dot) (hn : 3 < n) (compiled : Bool)
    {argsort : (Fin n → ℚ) → Equiv.Perm (Fin n)} (hsort : ∀ v : Fin n → ℚ, Monotone fun i => v (argsort v i))
    {x y : Fin n → ℚ} {X Y : ℚ} {r : ℝ} (fx : ∀ i, round64 (x i) = x i) (fy : ∀ i, round64 (y i) = y i)
    (hX : ∀ i, |x i| ≤ X) (hY : ∀ i, |y i| ≤ Y) (hK : 4 * n + 22 ≤ 2 ^ 53) (hr : r ≤ 1 / 4)
    (hx0 : 0 < Spec.dcovSqr (realDist fun i (_ : Fin 1) => x i) (realDist fun i (_ : Fin 1) => x i))
    (hy0 : 0 < Spec.dcovSqr (realDist fun i (_ : Fin 1) => y i) (realDist fun i (_ : Fin 1) => y i))
    (hx : 328 * (4 * n + 22) * (X * X : ℝ) / 2 ^ 53
      ≤ r * Spec.dcovSqr (realDist fun i (_ : Fin 1) => x i) (realDist fun i (_ : Fin 1) => x i))
    (hy : 328 * (4 * n + 22) * (Y * Y : ℝ) / 2 ^ 53
      ≤ r * Spec.dcovSqr (realDist fun i (_ : Fin 1) => y i) (realDist fun i (_ : Fin 1) => y i)) :
    ∃ s, (binary64 sqrt sum dot).avlStats false compiled argsort x y = .ok s ∧
      |(s.corr : ℝ) - Spec.dcorSqr (realDist fun i (_ : Fin 1) => x i) (realDist fun i (_ : Fin 1) => y i)|
        ≤ 3 * r + 6 / 2 ^ 53 ∧
      -(3 * r + 6 / 2 ^ 53) ≤ (s.corr : ℝ) ∧ (s.corr : ℝ) ≤ 1 + (3 * r + 6 / 2 ^ 53) := by
  obtain ⟨s, es, e1, e2, e3⟩ := C73_avl_accuracy h hn compiled hsort fx fy hX hY hK
  refine ⟨s, es, ?_⟩
  obtain ⟨t, rfl⟩ := avlStats_ok es
  have key := corr_close h false t hx0 hy0 hr (by ring) e1 e2 e3 hx hy (Spec.dcovSqr_cauchy _ _)
  exact ⟨key, corr_range key (Spec.dcorSqr_nonneg _ _ one_pos (by norm_num)) (Spec.abs_dcorSqr_le_one _ _)⟩

/-- C84 for the AVL method, bias-corrected estimator. -/
theorem C84_avl_unbiased_partial (h : IsFloat64 sqrt sum dot) (hn : 3 < n) (compiled : Bool)
    {argsort : (Fin n → ℚ) → Equiv.Perm (Fin n)} (hsort : ∀ v : Fin n → ℚ, Monotone fun i => v (argsort v i))
    {x y : Fin n → ℚ} {X Y : ℚ} {r : ℝ} (fx : ∀ i, round64 (x i) = x i) (fy : ∀ i, round64 (y i) = y i)
    (hX : ∀ i, |x i| ≤ X) (hY : ∀ i, |y i| ≤ Y) (hK : 4 * n + 22 ≤ 2 ^ 53) (hr : r ≤ 1 / 4)
    (hx0 : 0 < Spec.uDcovSqr (realDist fun i (_ : Fin 1) => x i) (realDist fun i (_ : Fin 1) => x i))
    (hy0 : 0 < Spec.uDcovSqr (realDist fun i (_ : Fin 1) => y i) (realDist fun i (_ : Fin 1) => y i))
    (hx : 2368 * (4 * n + 22) * (X * X : ℝ) / 2 ^ 53
      ≤ r * Spec.uDcovSqr (realDist fun i (_ : Fin 1) => x i) (realDist fun i (_ : Fin 1) => x i))
    (hy : 2368 * (4 * n + 22) * (Y * Y : ℝ) / 2 ^ 53
      ≤ r * Spec.uDcovSqr (realDist fun i (_ : Fin 1) => y i) (realDist fun i (_ : Fin 1) => y i)) :
    ∃ s, (binary64 sqrt sum dot).avlStats true compiled argsort x y = .ok s ∧
      |(s.corr : ℝ) - Spec.uDcorSqr (realDist fun i (_ : Fin 1) => x i) (realDist fun i (_ : Fin 1) => y i)|
        ≤ 3 * r + 6 / 2 ^ 53 ∧
      |(s.corr : ℝ)| ≤ 1 + (3 * r + 6 / 2 ^ 53) := by
  obtain ⟨s, es, e1, e2, e3⟩ := C73_avl_accuracy_unbiased h hn compiled hsort fx fy hX hY hK
  refine ⟨s, es, ?_⟩
  obtain ⟨t, rfl⟩ := avlStats_ok es
  have key := corr_close h true t hx0 hy0 hr (by ring) e1 e2 e3 hx hy (uDcovSqr_cauchy hn _ _)
  exact ⟨key, corr_range' key (Spec.abs_uDcorSqr_le_one hn _ _)⟩

/-- C84 for the mergesort method, biased estimator. -/
theorem C84_mergesort_partial (h : IsFloat64 sqrt sum dot) (hn : 0 < n)
    {argsort : (Fin n → ℚ) → Equiv.Perm (Fin n)} (hsort : ∀ v : Fin n → ℚ, Monotone fun i => v (argsort v i))
    {x y : Fin n → ℚ} {X Y : ℚ} {r : ℝ} (hX : ∀ i, |x i| ≤ X) (hY : ∀ i, |y i| ≤ Y) (hK : 4 * n + 22 ≤ 2 ^ 53)
    (hr : r ≤ 1 / 4)
    (hx0 : 0 < Spec.dcovSqr (realDist fun i (_ : Fin 1) => x i) (realDist fun i (_ : Fin 1) => x i))
    (hy0 : 0 < Spec.dcovSqr (realDist fun i (_ : Fin 1) => y i) (realDist fun i (_ : Fin 1) => y i))
    (hx : (64 * Nat.clog 2 n + 232) * (4 * n + 22) * (X * X : ℝ) / 2 ^ 53
      ≤ r * Spec.dcovSqr (realDist fun i (_ : Fin 1) => x i) (realDist fun i (_ : Fin 1) => x i))
    (hy : (64 * Nat.clog 2 n + 232) * (4 * n + 22) * (Y * Y : ℝ) / 2 ^ 53
      ≤ r * Spec.dcovSqr (realDist fun i (_ : Fin 1) => y i) (realDist fun i (_ : Fin 1) => y i)) :
    ∃ s, (binary64 sqrt sum dot).mergesortStats false (fun a b => decide (b ≤ a)) argsort x y = .ok s ∧
      |(s.corr : ℝ) - Spec.dcorSqr (realDist fun i (_ : Fin 1) => x i) (realDist fun i (_ : Fin 1) => y i)|
        ≤ 3 * r + 6 / 2 ^ 53 ∧
      -(3 * r + 6 / 2 ^ 53) ≤ (s.corr : ℝ) ∧ (s.corr : ℝ) ≤ 1 + (3 * r + 6 / 2 ^ 53) := by
  obtain ⟨s, es, e1, e2, e3⟩ := C73_mergesort_accuracy h hn hsort hX hY hK
  refine ⟨s, es, ?_⟩
  obtain ⟨t, rfl⟩ := mergesortStats_ok es
  have key := corr_close h false t hx0 hy0 hr (by ring) e1 e2 e3 hx hy (Spec.dcovSqr_cauchy _ _)
  exact ⟨key, corr_range key (Spec.dcorSqr_nonneg _ _ one_pos (by norm_num)) (Spec.abs_dcorSqr_le_one _ _)⟩

/-- C84 for the mergesort method, bias-corrected estimator. -/
theorem C84_mergesort_unbiased_partial (h : IsFloat64 sqrt sum dot) (hn : 3 < n)
    {argsort : (Fin n → ℚ) → Equiv.Perm (Fin n)} (hsort : ∀ v : Fin n → ℚ, Monotone fun i => v (argsort v i))
    {x y : Fin n → ℚ} {X Y : ℚ} {r : ℝ} (hX : ∀ i, |x i| ≤ X) (hY : ∀ i, |y i| ≤ Y) (hK : 4 * n + 22 ≤ 2 ^ 53)
    (hr : r ≤ 1 / 4)
    (hx0 : 0 < Spec.uDcovSqr (realDist fun i (_ : Fin 1) => x i) (realDist fun i (_ : Fin 1) => x i))
    (hy0 : 0 < Spec.uDcovSqr (realDist fun i (_ : Fin 1) => y i) (realDist fun i (_ : Fin 1) => y i))
    (hx : (256 * Nat.clog 2 n + 1984) * (4 * n + 22) * (X * X : ℝ) / 2 ^ 53
      ≤ r * Spec.uDcovSqr (realDist fun i (_ : Fin 1) => x i) (realDist fun i (_ : Fin 1) => x i))
    (hy : (256 * Nat.clog 2 n + 1984) * (4 * n + 22) * (Y * Y : ℝ) / 2 ^ 53
      ≤ r * Spec.uDcovSqr (realDist fun i (_ : Fin 1) => y i) (realDist fun i (_ : Fin 1) => y i)) :
    ∃ s, (binary64 sqrt sum dot).mergesortStats true (fun a b => decide (b ≤ a)) argsort x y = .ok s ∧
      |(s.corr : ℝ) - Spec.uDcorSqr (realDist fun i (_ : Fin 1) => x i) (realDist fun i (_ : Fin 1) => y i)|
        ≤ 3 * r + 6 / 2 ^ 53 ∧
      |(s.corr : ℝ)| ≤ 1 + (3 * r + 6 / 2 ^ 53) := by
  obtain ⟨s, es, e1, e2, e3⟩ := C73_mergesort_accuracy_unbiased h hn hsort hX hY hK
  refine ⟨s, es, ?_⟩
  obtain ⟨t, rfl⟩ := mergesortStats_ok es
  have key := corr_close h true t hx0 hy0 hr (by ring) e1 e2 e3 hx hy (uDcovSqr_cauchy hn _ _)
  exact ⟨key, corr_range' key (Spec.abs_uDcorSqr_le_one hn _ _)⟩

/-- Two samples of four observations, for the examples. -/
def corrX : Fin 4 → ℚ := ![0, 1, 2, 4]

@[inherit_doc corrX]
def corrY : Fin 4 → ℚ := ![1, 3, 0, 2]

theorem corrX_var : Spec.dcovSqr (realDist fun i (_ : Fin 1) => corrX i) (realDist fun i (_ : Fin 1) => corrX i)
    = 89 / 64 := by
  unfold realDist
  rw [← exactFrom_biased (by norm_num)]
  have : exactFrom 4 false (absTerms corrX corrX).meanProd (absTerms corrX corrX).aAxis (absTerms corrX corrX).aTotal
      (absTerms corrX corrX).bAxis (absTerms corrX corrX).bTotal = 89 / 64 := by decide +kernel
  rw [this]; push_cast; norm_num

theorem corrY_var : Spec.dcovSqr (realDist fun i (_ : Fin 1) => corrY i) (realDist fun i (_ : Fin 1) => corrY i)
    = 13 / 16 := by
  unfold realDist
  rw [← exactFrom_biased (by norm_num)]
  have : exactFrom 4 false (absTerms corrY corrY).meanProd (absTerms corrY corrY).aAxis (absTerms corrY corrY).aTotal
      (absTerms corrY corrY).bAxis (absTerms corrY corrY).bTotal = 13 / 16 := by decide +kernel
  rw [this]; push_cast; norm_num

theorem corrX_uVar : Spec.uDcovSqr (realDist fun i (_ : Fin 1) => corrX i) (realDist fun i (_ : Fin 1) => corrX i)
    = 2 / 3 := by
  unfold realDist
  rw [← exactFrom_unbiased (by norm_num)]
  have : exactFrom 4 true (absTerms corrX corrX).meanProd (absTerms corrX corrX).aAxis (absTerms corrX corrX).aTotal
      (absTerms corrX corrX).bAxis (absTerms corrX corrX).bTotal = 2 / 3 := by decide +kernel
  rw [this]; push_cast; norm_num

theorem corrY_uVar : Spec.uDcovSqr (realDist fun i (_ : Fin 1) => corrY i) (realDist fun i (_ : Fin 1) => corrY i)
    = 2 / 3 := by
  unfold realDist
  rw [← exactFrom_unbiased (by norm_num)]
  have : exactFrom 4 true (absTerms corrY corrY).meanProd (absTerms corrY corrY).aAxis (absTerms corrY corrY).aTotal
      (absTerms corrY corrY).bAxis (absTerms corrY corrY).bTotal = 2 / 3 := by decide +kernel
  rw [this]; push_cast; norm_num

theorem corrX_dist : ∀ i j, realDist (fun i (_ : Fin 1) => corrX i) i j ≤ (4 : ℝ) := by
  intro i j
  unfold realDist
  rw [distMat_cast]
  have : ∀ i j : Fin 4, |corrX i - corrX j| ≤ 4 := by decide +kernel
  exact ((Rat.cast_le (K := ℝ)).2 (this i j)).trans (by norm_num)

theorem corrY_dist : ∀ i j, realDist (fun i (_ : Fin 1) => corrY i) i j ≤ (3 : ℝ) := by
  intro i j
  unfold realDist
  rw [distMat_cast]
  have : ∀ i j : Fin 4, |corrY i - corrY j| ≤ 3 := by decide +kernel
  exact ((Rat.cast_le (K := ℝ)).2 (this i j)).trans (by norm_num)

/-- The hypotheses for the naive method with `r = 10 ** -11`. -/
example : (((binary64 sqrt64 seqSum64 seqDot64).naiveStats false (fun i (_ : Fin 1) => corrX i)
    (fun i (_ : Fin 1) => corrY i)).corr : ℝ) ≤ 1 + (3 * (1 / 10 ^ 11) + 6 / 2 ^ 53) :=
  (C84_naive_partial (r := 1 / 10 ^ 11) float64_seq.1 (by norm_num) _ _ corrX_dist corrY_dist (by norm_num)
    (by norm_num) (by rw [corrX_var]; norm_num) (by rw [corrY_var]; norm_num) (by rw [corrX_var]; norm_num)
    (by rw [corrY_var]; norm_num)).2.2

example : |(((binary64 sqrt64 seqSum64 seqDot64).naiveStats true (fun i (_ : Fin 1) => corrX i)
    (fun i (_ : Fin 1) => corrY i)).corr : ℝ)| ≤ 1 + (3 * (1 / 10 ^ 10) + 6 / 2 ^ 53) :=
  (C84_naive_unbiased_partial (r := 1 / 10 ^ 10) float64_seq.1 (by norm_num) _ _ corrX_dist corrY_dist (by norm_num)
    (by norm_num) (by rw [corrX_uVar]; norm_num) (by rw [corrY_uVar]; norm_num) (by rw [corrX_uVar]; norm_num)
    (by rw [corrY_uVar]; norm_num)).2

/-- The hypotheses for the AVL method with `r = 10 ** -8`. -/
example {argsort : (Fin 4 → ℚ) → Equiv.Perm (Fin 4)} (hsort : ∀ v : Fin 4 → ℚ, Monotone fun i => v (argsort v i)) :
    ∃ s, (binary64 sqrt64 seqSum64 seqDot64).avlStats false true argsort corrX corrY = .ok s ∧
      (s.corr : ℝ) ≤ 1 + (3 * (1 / 10 ^ 8) + 6 / 2 ^ 53) := by
  obtain ⟨s, e, h⟩ := C84_avl_partial (r := 1 / 10 ^ 8) (x := corrX) (y := corrY) (X := 4) (Y := 3) float64_seq.1
    (by norm_num) true hsort (by decide +kernel) (by decide +kernel) (by decide +kernel) (by decide +kernel)
    (by norm_num) (by norm_num) (by rw [corrX_var]; norm_num) (by rw [corrY_var]; norm_num)
    (by rw [corrX_var]; norm_num) (by rw [corrY_var]; norm_num)
  exact ⟨s, e, h.2.2⟩

example {argsort : (Fin 4 → ℚ) → Equiv.Perm (Fin 4)} (hsort : ∀ v : Fin 4 → ℚ, Monotone fun i => v (argsort v i)) :
    ∃ s, (binary64 sqrt64 seqSum64 seqDot64).avlStats true true argsort corrX corrY = .ok s ∧
      |(s.corr : ℝ)| ≤ 1 + (3 * (1 / 10 ^ 8) + 6 / 2 ^ 53) := by
  obtain ⟨s, e, h⟩ := C84_avl_unbiased_partial (r := 1 / 10 ^ 8) (x := corrX) (y := corrY) (X := 4) (Y := 3)
    float64_seq.1 (by norm_num) true hsort (by decide +kernel) (by decide +kernel) (by decide +kernel)
    (by decide +kernel) (by norm_num) (by norm_num) (by rw [corrX_uVar]; norm_num) (by rw [corrY_uVar]; norm_num)
    (by rw [corrX_uVar]; norm_num) (by rw [corrY_uVar]; norm_num)
  exact ⟨s, e, h.2⟩

/-- The hypotheses for the mergesort method with `r = 10 ** -8`. -/
example {argsort : (Fin 4 → ℚ) → Equiv.Perm (Fin 4)} (hsort : ∀ v : Fin 4 → ℚ, Monotone fun i => v (argsort v i)) :
    ∃ s, (binary64 sqrt64 seqSum64 seqDot64).mergesortStats false (fun a b => decide (b ≤ a)) argsort corrX corrY
        = .ok s ∧ (s.corr : ℝ) ≤ 1 + (3 * (1 / 10 ^ 8) + 6 / 2 ^ 53) := by
  have hc : Nat.clog 2 4 = 2 := Nat.clog_pow 2 2 (by norm_num)
  obtain ⟨s, e, h⟩ := C84_mergesort_partial (r := 1 / 10 ^ 8) (x := corrX) (y := corrY) (X := 4) (Y := 3)
    float64_seq.1 (by norm_num) hsort (by decide +kernel) (by decide +kernel)
    (by norm_num) (by norm_num) (by rw [corrX_var]; norm_num) (by rw [corrY_var]; norm_num)
    (by rw [corrX_var, hc]; norm_num) (by rw [corrY_var, hc]; norm_num)
  exact ⟨s, e, h.2.2⟩

example {argsort : (Fin 4 → ℚ) → Equiv.Perm (Fin 4)} (hsort : ∀ v : Fin 4 → ℚ, Monotone fun i => v (argsort v i)) :
    ∃ s, (binary64 sqrt64 seqSum64 seqDot64).mergesortStats true (fun a b => decide (b ≤ a)) argsort corrX corrY
        = .ok s ∧ |(s.corr : ℝ)| ≤ 1 + (3 * (1 / 10 ^ 8) + 6 / 2 ^ 53) := by
  have hc : Nat.clog 2 4 = 2 := Nat.clog_pow 2 2 (by norm_num)
  obtain ⟨s, e, h⟩ := C84_mergesort_unbiased_partial (r := 1 / 10 ^ 8) (x := corrX) (y := corrY) (X := 4) (Y := 3)
    float64_seq.1 (by norm_num) hsort (by decide +kernel) (by decide +kernel)
    (by norm_num) (by norm_num) (by rw [corrX_uVar]; norm_num) (by rw [corrY_uVar]; norm_num)
    (by rw [corrX_uVar, hc]; norm_num) (by rw [corrY_uVar, hc]; norm_num)
  exact ⟨s, e, h.2⟩

end Dcor.Props

/-
C72–C73: how far the statistics computed in `float64` are from the exact ones.
-/
import Verif.Proofs.ErrorMerge
import Verif.Props.Float

namespace Dcor.Props

open Dcor

variable {sqrt : ℚ → ℚ} {sum : List ℚ → ℚ} {dot : List (ℚ × ℚ) → ℚ} {n p q : ℕ}

/-! ### C72: accuracy relative to the distances -/

/-- Euclidean distances between the rows of a sample of rationals. -/
noncomputable def realDist (x : Fin n → Fin p → ℚ) : Fin n → Fin n → ℝ := Spec.distMat 1 fun i k => (x i k : ℝ)

/-- C72 for the naive method, biased estimator: if no distance between observations of `x` is more than `A` and no
distance between observations of `y` is more than `B`, the computed squared distance covariance and variances are
within `8 * (n ** 2 + 4 * n + (p + q) / 2 + 16) * 2 ** -53` times `A * B`, `A * A`, `B * B` of the exact ones, whatever
the magnitude of the samples themselves. -/
theorem C72_naive_accuracy_partial (h : IsFloat64 sqrt sum dot) (hn : 0 < n) (x : Fin n → Fin p → ℚ)
    (y : Fin n → Fin q → ℚ) {A B : ℝ} (hA : ∀ i j, realDist x i j ≤ A) (hB : ∀ i j, realDist y i j ≤ B)
    (hK : n ^ 2 + 4 * n + max p q + 16 ≤ 2 ^ 53) :
    |(((binary64 sqrt sum dot).naiveStats false x y).cov : ℝ) - Spec.dcovSqr (realDist x) (realDist y)|
        ≤ 8 * (n ^ 2 + 4 * n + max p q + 16 : ℕ) * A * B / 2 ^ 53 ∧
      |(((binary64 sqrt sum dot).naiveStats false x y).varX : ℝ) - Spec.dcovSqr (realDist x) (realDist x)|
        ≤ 8 * (n ^ 2 + 4 * n + max p q + 16 : ℕ) * A * A / 2 ^ 53 ∧
      |(((binary64 sqrt sum dot).naiveStats false x y).varY : ℝ) - Spec.dcovSqr (realDist y) (realDist y)|
        ≤ 8 * (n ^ 2 + 4 * n + max p q + 16 : ℕ) * B * B / 2 ^ 53 := by
  have A0 : 0 ≤ A := (Spec.distMat_diag one_ne_zero _ ⟨0, hn⟩).ge.trans (hA ⟨0, hn⟩ ⟨0, hn⟩)
  have B0 : 0 ≤ B := (Spec.distMat_diag one_ne_zero _ ⟨0, hn⟩).ge.trans (hB ⟨0, hn⟩ ⟨0, hn⟩)
  have mono : ∀ {k l : ℕ} {C D : ℝ}, 0 ≤ C → 0 ≤ D → k ≤ l → 8 * (k : ℝ) * C * D / 2 ^ 53 ≤ 8 * l * C * D / 2 ^ 53 := by
    intro k l C D hC hD hkl
    have : (k : ℝ) ≤ l := by exact_mod_cast hkl
    gcongr
  refine ⟨(naive_error_biased h hn x y hA hB (by omega)).trans (mono A0 B0 (by omega)),
    (naive_error_biased h hn x x hA hA (by omega)).trans (mono A0 A0 (by omega)),
    (naive_error_biased h hn y y hB hB (by omega)).trans (mono B0 B0 (by omega))⟩

/-- C72 for the naive method, bias-corrected estimator. -/
theorem C72_naive_accuracy_unbiased_partial (h : IsFloat64 sqrt sum dot) (hn : 3 < n) (x : Fin n → Fin p → ℚ)
    (y : Fin n → Fin q → ℚ) {A B : ℝ} (hA : ∀ i j, realDist x i j ≤ A) (hB : ∀ i j, realDist y i j ≤ B)
    (hK : n ^ 2 + 4 * n + max p q + 16 ≤ 2 ^ 53) :
    |(((binary64 sqrt sum dot).naiveStats true x y).cov : ℝ) - Spec.uDcovSqr (realDist x) (realDist y)|
        ≤ 36 * (n ^ 2 + 4 * n + max p q + 16 : ℕ) * A * B / 2 ^ 53 ∧
      |(((binary64 sqrt sum dot).naiveStats true x y).varX : ℝ) - Spec.uDcovSqr (realDist x) (realDist x)|
        ≤ 36 * (n ^ 2 + 4 * n + max p q + 16 : ℕ) * A * A / 2 ^ 53 ∧
      |(((binary64 sqrt sum dot).naiveStats true x y).varY : ℝ) - Spec.uDcovSqr (realDist y) (realDist y)|
        ≤ 36 * (n ^ 2 + 4 * n + max p q + 16 : ℕ) * B * B / 2 ^ 53 := by
  have hn0 : 0 < n := by omega
  have A0 : 0 ≤ A := (Spec.distMat_diag one_ne_zero _ ⟨0, hn0⟩).ge.trans (hA ⟨0, hn0⟩ ⟨0, hn0⟩)
  have B0 : 0 ≤ B := (Spec.distMat_diag one_ne_zero _ ⟨0, hn0⟩).ge.trans (hB ⟨0, hn0⟩ ⟨0, hn0⟩)
  have mono : ∀ {k l : ℕ} {C D : ℝ}, 0 ≤ C → 0 ≤ D → k ≤ l → 36 * (k : ℝ) * C * D / 2 ^ 53 ≤ 36 * l * C * D / 2 ^ 53 := by
    intro k l C D hC hD hkl
    have : (k : ℝ) ≤ l := by exact_mod_cast hkl
    gcongr
  refine ⟨(naive_error_unbiased h hn x y hA hB (by omega)).trans (mono A0 B0 (by omega)),
    (naive_error_unbiased h hn x x hA hA (by omega)).trans (mono A0 A0 (by omega)),
    (naive_error_unbiased h hn y y hB hB (by omega)).trans (mono B0 B0 (by omega))⟩

/-- For `[0, 1, 2, 4] + 2 ** 30`, whose distances are at most 4, the naive method is within `10 ** -11` of `89 / 64`. -/
example : |(((binary64 sqrt64 seqSum64 seqDot64).naiveStats false
      (fun i (_ : Fin 1) => (![0, 1, 2, 4] : Fin 4 → ℚ) i + 2 ^ 30)
      (fun i (_ : Fin 1) => (![0, 1, 2, 4] : Fin 4 → ℚ) i + 2 ^ 30)).cov : ℝ)
    - Spec.dcovSqr (realDist fun i (_ : Fin 1) => (![0, 1, 2, 4] : Fin 4 → ℚ) i + 2 ^ 30)
      (realDist fun i (_ : Fin 1) => (![0, 1, 2, 4] : Fin 4 → ℚ) i + 2 ^ 30)| ≤ 1 / 10 ^ 11 := by
  have hA : ∀ i j, realDist (fun i (_ : Fin 1) => (![0, 1, 2, 4] : Fin 4 → ℚ) i + 2 ^ 30) i j ≤ (4 : ℝ) := by
    intro i j
    unfold realDist
    rw [distMat_cast]
    have : ∀ i j : Fin 4, |((![0, 1, 2, 4] : Fin 4 → ℚ) i + 2 ^ 30) - ((![0, 1, 2, 4] : Fin 4 → ℚ) j + 2 ^ 30)| ≤ 4 := by
      decide +kernel
    have := (Rat.cast_le (K := ℝ)).2 (this i j)
    exact this.trans (by norm_num)
  refine (C72_naive_accuracy_partial float64_seq.1 (by norm_num) _ _ hA hA (by norm_num)).1.trans ?_
  norm_num

/-- C72 fails for the AVL method, already for four observations at distance at most 4: the squared distance covariance
of `[0, 1, 2, 4] + 2 ** 30` with itself is wrong by more than 4, whereas the bound satisfied by the naive method is
less than `10 ** -11`. -/
theorem C72_avl_inaccurate (h : IsFloat64 sqrt seqSum64 dot) {argsort : (Fin 4 → ℚ) → Equiv.Perm (Fin 4)}
    (hsort : KeepsSorted argsort) (compiled : Bool) :
    ∃ (x : Fin 4 → ℚ) (s : Arith.StatsSqr ℚ), (∀ i, round64 (x i) = x i) ∧
      (∀ i j, realDist (fun i (_ : Fin 1) => x i) i j ≤ 4) ∧
      (binary64 sqrt seqSum64 dot).avlStats false compiled argsort x x = .ok s ∧
      4 < |(s.cov : ℝ) - Spec.dcovSqr (realDist fun i (_ : Fin 1) => x i) (realDist fun i (_ : Fin 1) => x i)| := by
  obtain ⟨_, s, _, e, _, _, hs, -⟩ := C68_translation_avl_fails h hsort compiled
  refine ⟨_, s, by decide +kernel, fun i j => ?_, e, ?_⟩
  · unfold realDist
    rw [distMat_cast]
    have : ∀ i j : Fin 4, |((![0, 1, 2, 4] : Fin 4 → ℚ) i + 2 ^ 30) - ((![0, 1, 2, 4] : Fin 4 → ℚ) j + 2 ^ 30)| ≤ 4 := by
      decide +kernel
    have := (Rat.cast_le (K := ℝ)).2 (this i j)
    exact this.trans (by norm_num)
  · unfold realDist
    rw [← exactFrom_biased (by norm_num), hs]
    have : exactFrom 4 false
        (absTerms (fun i => (![0, 1, 2, 4] : Fin 4 → ℚ) i + 2 ^ 30) (fun i => (![0, 1, 2, 4] : Fin 4 → ℚ) i + 2 ^ 30)).meanProd
        (absTerms (fun i => (![0, 1, 2, 4] : Fin 4 → ℚ) i + 2 ^ 30) (fun i => (![0, 1, 2, 4] : Fin 4 → ℚ) i + 2 ^ 30)).aAxis
        (absTerms (fun i => (![0, 1, 2, 4] : Fin 4 → ℚ) i + 2 ^ 30) (fun i => (![0, 1, 2, 4] : Fin 4 → ℚ) i + 2 ^ 30)).aTotal
        (absTerms (fun i => (![0, 1, 2, 4] : Fin 4 → ℚ) i + 2 ^ 30) (fun i => (![0, 1, 2, 4] : Fin 4 → ℚ) i + 2 ^ 30)).bAxis
        (absTerms (fun i => (![0, 1, 2, 4] : Fin 4 → ℚ) i + 2 ^ 30) (fun i => (![0, 1, 2, 4] : Fin 4 → ℚ) i + 2 ^ 30)).bTotal
        = 89 / 64 := by
      decide +kernel
    rw [this]
    push_cast
    rw [lt_abs]
    right
    norm_num

/-! ### C73: accuracy relative to the magnitude of the samples -/

/-- C73 for the AVL method, biased estimator: if the samples are floating-point numbers at most `X` and `Y` in absolute
value, the computed squared distance covariance and variances are within `328 * (4 * n + 22) * 2 ** -53` times `X * Y`,
`X * X`, `Y * Y` of the exact ones. -/
theorem C73_avl_accuracy (h : IsFloat64 sqrt sum dot) (hn : 3 < n) (compiled : Bool)
    {argsort : (Fin n → ℚ) → Equiv.Perm (Fin n)} (hsort : ∀ v : Fin n → ℚ, Monotone fun i => v (argsort v i))
    {x y : Fin n → ℚ} {X Y : ℚ} (fx : ∀ i, round64 (x i) = x i) (fy : ∀ i, round64 (y i) = y i)
    (hx : ∀ i, |x i| ≤ X) (hy : ∀ i, |y i| ≤ Y) (hK : 4 * n + 22 ≤ 2 ^ 53) :
    ∃ s, (binary64 sqrt sum dot).avlStats false compiled argsort x y = .ok s ∧
      |(s.cov : ℝ) - Spec.dcovSqr (realDist fun i (_ : Fin 1) => x i) (realDist fun i (_ : Fin 1) => y i)|
        ≤ 328 * (4 * n + 22) * (X * Y) / 2 ^ 53 ∧
      |(s.varX : ℝ) - Spec.dcovSqr (realDist fun i (_ : Fin 1) => x i) (realDist fun i (_ : Fin 1) => x i)|
        ≤ 328 * (4 * n + 22) * (X * X) / 2 ^ 53 ∧
      |(s.varY : ℝ) - Spec.dcovSqr (realDist fun i (_ : Fin 1) => y i) (realDist fun i (_ : Fin 1) => y i)|
        ≤ 328 * (4 * n + 22) * (Y * Y) / 2 ^ 53 := by
  have hn0 : 0 < n := by omega
  obtain ⟨t, e, ht⟩ := avlTerms_err h hn compiled hsort fx fy hx hy
  obtain ⟨e1, e2, e3⟩ := stats_err (bc := false) h (by simpa using hn0) (by norm_num) hx hy ht (Equiv.refl _) rfl
    (fun _ => rfl) rfl (fun _ => rfl) rfl rfl
  rw [sizeFrom_biased hn0] at e1 e2 e3
  refine ⟨_, by rw [Arith.avlStats, e]; rfl, ?_, ?_, ?_⟩
  · refine (e1.real hK (exactFrom_biased hn0 x y) le_rfl).trans (le_of_eq ?_)
    push_cast; ring
  · refine (e2.real hK (exactFrom_biased hn0 x x) le_rfl).trans (le_of_eq ?_)
    push_cast; ring
  · refine (e3.real hK (exactFrom_biased hn0 y y) le_rfl).trans (le_of_eq ?_)
    push_cast; ring

/-- C73 for the AVL method, bias-corrected estimator. -/
theorem C73_avl_accuracy_unbiased (h : IsFloat64 sqrt sum dot) (hn : 3 < n) (compiled : Bool)
    {argsort : (Fin n → ℚ) → Equiv.Perm (Fin n)} (hsort : ∀ v : Fin n → ℚ, Monotone fun i => v (argsort v i))
    {x y : Fin n → ℚ} {X Y : ℚ} (fx : ∀ i, round64 (x i) = x i) (fy : ∀ i, round64 (y i) = y i)
    (hx : ∀ i, |x i| ≤ X) (hy : ∀ i, |y i| ≤ Y) (hK : 4 * n + 22 ≤ 2 ^ 53) :
    ∃ s, (binary64 sqrt sum dot).avlStats true compiled argsort x y = .ok s ∧
      |(s.cov : ℝ) - Spec.uDcovSqr (realDist fun i (_ : Fin 1) => x i) (realDist fun i (_ : Fin 1) => y i)|
        ≤ 2368 * (4 * n + 22) * (X * Y) / 2 ^ 53 ∧
      |(s.varX : ℝ) - Spec.uDcovSqr (realDist fun i (_ : Fin 1) => x i) (realDist fun i (_ : Fin 1) => x i)|
        ≤ 2368 * (4 * n + 22) * (X * X) / 2 ^ 53 ∧
      |(s.varY : ℝ) - Spec.uDcovSqr (realDist fun i (_ : Fin 1) => y i) (realDist fun i (_ : Fin 1) => y i)|
        ≤ 2368 * (4 * n + 22) * (Y * Y) / 2 ^ 53 := by
  have hX : 0 ≤ X := (abs_nonneg _).trans (hx ⟨0, by omega⟩)
  have hY : 0 ≤ Y := (abs_nonneg _).trans (hy ⟨0, by omega⟩)
  obtain ⟨t, e, ht⟩ := avlTerms_err h hn compiled hsort fx fy hx hy
  obtain ⟨e1, e2, e3⟩ := stats_err (bc := true) h (by simpa using hn) (by norm_num) hx hy ht (Equiv.refl _) rfl
    (fun _ => rfl) rfl (fun _ => rfl) rfl rfl
  have hs := sizeFrom_unbiased (M := 56) hn (by norm_num)
  refine ⟨_, by rw [Arith.avlStats, e]; rfl, ?_, ?_, ?_⟩
  · refine (e1.real hK (exactFrom_unbiased hn x y) (mul_le_mul_of_nonneg_right hs (mul_nonneg hX hY))).trans
      (le_of_eq ?_)
    push_cast; ring
  · refine (e2.real hK (exactFrom_unbiased hn x x) (mul_le_mul_of_nonneg_right hs (mul_nonneg hX hX))).trans
      (le_of_eq ?_)
    push_cast; ring
  · refine (e3.real hK (exactFrom_unbiased hn y y) (mul_le_mul_of_nonneg_right hs (mul_nonneg hY hY))).trans
      (le_of_eq ?_)
    push_cast; ring

/-- Four floating-point numbers that are not integers. -/
example {argsort : (Fin 4 → ℚ) → Equiv.Perm (Fin 4)} (hsort : ∀ v : Fin 4 → ℚ, Monotone fun i => v (argsort v i)) :
    ∃ s, (binary64 sqrt64 seqSum64 seqDot64).avlStats false true argsort
        (fun i => round64 ((![1 / 10, 1 / 3, -7 / 5, 5 / 7] : Fin 4 → ℚ) i))
        (fun i => round64 ((![2 / 3, 1 / 7, -1 / 5, 1 / 9] : Fin 4 → ℚ) i)) = .ok s ∧
      |(s.cov : ℝ) - Spec.dcovSqr (realDist fun i (_ : Fin 1) => round64 ((![1 / 10, 1 / 3, -7 / 5, 5 / 7] : Fin 4 → ℚ) i))
        (realDist fun i (_ : Fin 1) => round64 ((![2 / 3, 1 / 7, -1 / 5, 1 / 9] : Fin 4 → ℚ) i))| ≤ 1 / 10 ^ 11 := by
  obtain ⟨s, e, h1, -⟩ := C73_avl_accuracy (n := 4) (X := 2) (Y := 1) float64_seq.1 (by norm_num) true hsort
    (x := fun i => round64 ((![1 / 10, 1 / 3, -7 / 5, 5 / 7] : Fin 4 → ℚ) i))
    (y := fun i => round64 ((![2 / 3, 1 / 7, -1 / 5, 1 / 9] : Fin 4 → ℚ) i))
    (by decide +kernel) (by decide +kernel) (by decide +kernel) (by decide +kernel) (by norm_num)
  refine ⟨s, e, h1.trans ?_⟩
  norm_num

/-- C73 for the mergesort method, biased estimator: the errors are within
`(64 * ceil(log2(n)) + 232) * (4 * n + 22) * 2 ** -53` times `X * Y`, `X * X`, `Y * Y`. -/
theorem C73_mergesort_accuracy (h : IsFloat64 sqrt sum dot) (hn : 0 < n)
    {argsort : (Fin n → ℚ) → Equiv.Perm (Fin n)} (hsort : ∀ v : Fin n → ℚ, Monotone fun i => v (argsort v i))
    {x y : Fin n → ℚ} {X Y : ℚ} (hx : ∀ i, |x i| ≤ X) (hy : ∀ i, |y i| ≤ Y) (hK : 4 * n + 22 ≤ 2 ^ 53) :
    ∃ s, (binary64 sqrt sum dot).mergesortStats false (fun a b => decide (b ≤ a)) argsort x y = .ok s ∧
      |(s.cov : ℝ) - Spec.dcovSqr (realDist fun i (_ : Fin 1) => x i) (realDist fun i (_ : Fin 1) => y i)|
        ≤ (64 * Nat.clog 2 n + 232) * (4 * n + 22) * (X * Y) / 2 ^ 53 ∧
      |(s.varX : ℝ) - Spec.dcovSqr (realDist fun i (_ : Fin 1) => x i) (realDist fun i (_ : Fin 1) => x i)|
        ≤ (64 * Nat.clog 2 n + 232) * (4 * n + 22) * (X * X) / 2 ^ 53 ∧
      |(s.varY : ℝ) - Spec.dcovSqr (realDist fun i (_ : Fin 1) => y i) (realDist fun i (_ : Fin 1) => y i)|
        ≤ (64 * Nat.clog 2 n + 232) * (4 * n + 22) * (Y * Y) / 2 ^ 53 := by
  have hn0 : 0 < n := by omega
  have hL : (0 : ℚ) ≤ Nat.clog 2 n := by positivity
  obtain ⟨t, e, ht⟩ := mergesortTerms_err h hn0 hsort hx hy
  obtain ⟨e1, e2, e3⟩ := stats_err (bc := false) h (by simpa using hn) (by linarith) hx hy ht (argsort x) rfl
    (fun _ => rfl) rfl (fun _ => rfl) rfl rfl
  rw [sizeFrom_biased hn0] at e1 e2 e3
  refine ⟨_, by rw [Arith.mergesortStats, e]; rfl, ?_, ?_, ?_⟩
  · refine (e1.real hK (exactFrom_biased hn0 x y) le_rfl).trans (le_of_eq ?_)
    push_cast; ring
  · refine (e2.real hK (exactFrom_biased hn0 x x) le_rfl).trans (le_of_eq ?_)
    push_cast; ring
  · refine (e3.real hK (exactFrom_biased hn0 y y) le_rfl).trans (le_of_eq ?_)
    push_cast; ring

/-- C73 for the mergesort method, bias-corrected estimator. -/
theorem C73_mergesort_accuracy_unbiased (h : IsFloat64 sqrt sum dot) (hn : 3 < n)
    {argsort : (Fin n → ℚ) → Equiv.Perm (Fin n)} (hsort : ∀ v : Fin n → ℚ, Monotone fun i => v (argsort v i))
    {x y : Fin n → ℚ} {X Y : ℚ} (hx : ∀ i, |x i| ≤ X) (hy : ∀ i, |y i| ≤ Y) (hK : 4 * n + 22 ≤ 2 ^ 53) :
    ∃ s, (binary64 sqrt sum dot).mergesortStats true (fun a b => decide (b ≤ a)) argsort x y = .ok s ∧
      |(s.cov : ℝ) - Spec.uDcovSqr (realDist fun i (_ : Fin 1) => x i) (realDist fun i (_ : Fin 1) => y i)|
        ≤ (256 * Nat.clog 2 n + 1984) * (4 * n + 22) * (X * Y) / 2 ^ 53 ∧
      |(s.varX : ℝ) - Spec.uDcovSqr (realDist fun i (_ : Fin 1) => x i) (realDist fun i (_ : Fin 1) => x i)|
        ≤ (256 * Nat.clog 2 n + 1984) * (4 * n + 22) * (X * X) / 2 ^ 53 ∧
      |(s.varY : ℝ) - Spec.uDcovSqr (realDist fun i (_ : Fin 1) => y i) (realDist fun i (_ : Fin 1) => y i)|
        ≤ (256 * Nat.clog 2 n + 1984) * (4 * n + 22) * (Y * Y) / 2 ^ 53 := by
  have hn0 : 0 < n := by omega
  have hL : (0 : ℚ) ≤ Nat.clog 2 n := by positivity
  obtain ⟨t, e, ht⟩ := mergesortTerms_err h hn0 hsort hx hy
  obtain ⟨e1, e2, e3⟩ := stats_err (bc := true) h (by simpa using hn) (by linarith) hx hy ht (argsort x) rfl
    (fun _ => rfl) rfl (fun _ => rfl) rfl rfl
  have hX : 0 ≤ X := (abs_nonneg _).trans (hx ⟨0, hn0⟩)
  have hY : 0 ≤ Y := (abs_nonneg _).trans (hy ⟨0, hn0⟩)
  have hs := sizeFrom_unbiased (M := 32 * Nat.clog 2 n + 8) hn (by linarith)
  refine ⟨_, by rw [Arith.mergesortStats, e]; rfl, ?_, ?_, ?_⟩
  · refine (e1.real hK (exactFrom_unbiased hn x y) (mul_le_mul_of_nonneg_right hs (mul_nonneg hX hY))).trans
      (le_of_eq ?_)
    push_cast; ring
  · refine (e2.real hK (exactFrom_unbiased hn x x) (mul_le_mul_of_nonneg_right hs (mul_nonneg hX hX))).trans
      (le_of_eq ?_)
    push_cast; ring
  · refine (e3.real hK (exactFrom_unbiased hn y y) (mul_le_mul_of_nonneg_right hs (mul_nonneg hY hY))).trans
      (le_of_eq ?_)
    push_cast; ring

/-- Three numbers. -/
example {argsort : (Fin 3 → ℚ) → Equiv.Perm (Fin 3)} (hsort : ∀ v : Fin 3 → ℚ, Monotone fun i => v (argsort v i)) :
    ∃ s, (binary64 sqrt64 seqSum64 seqDot64).mergesortStats false (fun a b => decide (b ≤ a)) argsort
        ![1 / 4, -2, 1] ![1, 3 / 8, -1] = .ok s ∧
      |(s.cov : ℝ) - Spec.dcovSqr (realDist fun i (_ : Fin 1) => (![1 / 4, -2, 1] : Fin 3 → ℚ) i)
        (realDist fun i (_ : Fin 1) => (![1, 3 / 8, -1] : Fin 3 → ℚ) i)| ≤ 1 / 10 ^ 11 := by
  obtain ⟨s, e, h1, -⟩ := C73_mergesort_accuracy (n := 3) (X := 2) (Y := 1) float64_seq.1 (by norm_num) hsort
    (x := ![1 / 4, -2, 1]) (y := ![1, 3 / 8, -1]) (by decide +kernel) (by decide +kernel) (by norm_num)
  refine ⟨s, e, h1.trans ?_⟩
  have : Nat.clog 2 3 ≤ 2 := (Nat.clog_le_iff_le_pow (by norm_num)).2 (by norm_num)
  have : (Nat.clog 2 3 : ℝ) ≤ 2 := by exact_mod_cast this
  push_cast
  linarith

end Dcor.Props

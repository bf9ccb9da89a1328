/-
C94: accuracy of the distance covariance and of the distance correlation, which are square roots, in `float64`.
-/
import Verif.Model.RoundingRoots
import Verif.Proofs.FloatPartialCorr
import Verif.Proofs.NumpySum
import Verif.Proofs.Sqrt64
import Verif.Props.FloatCorr
import Mathlib.Logic.Equiv.Fin.Basic

namespace Dcor.Props

open Dcor

variable {sqrt : ℚ → ℚ} {sum : List ℚ → ℚ} {dot : List (ℚ × ℚ) → ℚ} {n p q : ℕ}

/-! ### Square roots of numbers with an error -/

theorem sqrtClip_error (h : IsFloat64 sqrt sum dot) (w : ℚ) :
    |((binary64 sqrt sum dot).sqrtClip w : ℝ) - Real.sqrt w| ≤ Real.sqrt w / 2 ^ 53 := by
  unfold Arith.sqrtClip
  rw [ofInt_binary64.1]
  show |((sqrt (if decide (w < 0) = true then 0 else w) : ℚ) : ℝ) - Real.sqrt w| ≤ Real.sqrt w / 2 ^ 53
  simp only [decide_eq_true_eq]
  split_ifs with hw
  · have hw' : (w : ℝ) ≤ 0 := by exact_mod_cast hw.le
    have := (h.sqrt 0 le_rfl).err
    rw [Real.sqrt_eq_zero_of_nonpos hw']
    simpa using this
  · exact (h.sqrt w (not_lt.1 hw)).err

theorem abs_sqrt_sub_le {w c E : ℝ} (hE : |w - c| ≤ E) : |Real.sqrt w - Real.sqrt c| ≤ Real.sqrt E := by
  have one : ∀ {a b : ℝ}, a - b ≤ E → Real.sqrt a ≤ Real.sqrt b + Real.sqrt E := by
    intro a b hab
    by_cases hb : 0 ≤ b
    · refine le_trans (Real.sqrt_le_sqrt (by linarith : a ≤ b + E)) ?_
      by_cases hE0 : 0 ≤ E
      · apply Real.sqrt_le_iff.2
        refine ⟨by positivity, ?_⟩
        rw [add_sq, Real.sq_sqrt hb, Real.sq_sqrt hE0]
        have : 0 ≤ 2 * Real.sqrt b * Real.sqrt E := by positivity
        linarith
      · exact (Real.sqrt_le_sqrt (by linarith)).trans (le_add_of_nonneg_right (Real.sqrt_nonneg _))
    · rw [Real.sqrt_eq_zero_of_nonpos (not_le.1 hb).le, zero_add]
      exact Real.sqrt_le_sqrt (by linarith)
  obtain ⟨h1, h2⟩ := abs_le.1 hE
  have a1 := one h2
  have a2 := one (a := c) (b := w) (by linarith)
  rw [abs_le]
  constructor <;> linarith

/-- The error of a root is at most the root of the error. -/
theorem root_error (h : IsFloat64 sqrt sum dot) {w : ℚ} {c E : ℝ} (hE : |(w : ℝ) - c| ≤ E) :
    |((binary64 sqrt sum dot).sqrtClip w : ℝ) - Real.sqrt c| ≤ (1 + 1 / 2 ^ 53) * Real.sqrt E + Real.sqrt c / 2 ^ 53 := by
  have h1 := sqrtClip_error h w
  have h2 := abs_sqrt_sub_le hE
  have h3 : Real.sqrt w ≤ Real.sqrt c + Real.sqrt E := by linarith [(abs_le.1 h2).2]
  have h4 : Real.sqrt w / 2 ^ 53 ≤ (Real.sqrt c + Real.sqrt E) / 2 ^ 53 := div_le_div_of_nonneg_right h3 (by positivity)
  calc _ = |((binary64 sqrt sum dot).sqrtClip w - Real.sqrt w) + (Real.sqrt w - Real.sqrt c)| := by ring_nf
    _ ≤ _ := abs_add_le _ _
    _ ≤ (Real.sqrt c + Real.sqrt E) / 2 ^ 53 + Real.sqrt E := add_le_add (h1.trans h4) h2
    _ = _ := by ring

/-- Away from zero the error of a root is proportional to the error. -/
theorem root_error_pos (h : IsFloat64 sqrt sum dot) {w : ℚ} {c E : ℝ} (hc : 0 < c) (hE : |(w : ℝ) - c| ≤ E) :
    |((binary64 sqrt sum dot).sqrtClip w : ℝ) - Real.sqrt c|
      ≤ (1 + 1 / 2 ^ 53) * (E / Real.sqrt c) + Real.sqrt c / 2 ^ 53 := by
  have h1 := sqrtClip_error h w
  have c0 : 0 < Real.sqrt c := Real.sqrt_pos.2 hc
  have h2 : |Real.sqrt w - Real.sqrt c| ≤ E / Real.sqrt c := by
    rw [le_div_iff₀ c0]
    by_cases hw : 0 ≤ (w : ℝ)
    · have e : (w : ℝ) - c = (Real.sqrt w - Real.sqrt c) * (Real.sqrt w + Real.sqrt c) := by
        have a1 := Real.mul_self_sqrt hw
        have a2 := Real.mul_self_sqrt hc.le
        linear_combination a2 - a1
      rw [e, abs_mul, abs_of_pos (by positivity : 0 < Real.sqrt w + Real.sqrt c)] at hE
      refine le_trans (mul_le_mul_of_nonneg_left ?_ (abs_nonneg _)) hE
      linarith [Real.sqrt_nonneg (w : ℝ)]
    · rw [Real.sqrt_eq_zero_of_nonpos (not_le.1 hw).le, zero_sub, abs_neg, abs_of_pos c0, Real.mul_self_sqrt hc.le]
      linarith [(abs_le.1 hE).1, not_le.1 hw]
  have h3 : Real.sqrt w ≤ Real.sqrt c + E / Real.sqrt c := by linarith [(abs_le.1 h2).2]
  have h4 : Real.sqrt w / 2 ^ 53 ≤ (Real.sqrt c + E / Real.sqrt c) / 2 ^ 53 := div_le_div_of_nonneg_right h3 (by positivity)
  calc _ = |((binary64 sqrt sum dot).sqrtClip w - Real.sqrt w) + (Real.sqrt w - Real.sqrt c)| := by ring_nf
    _ ≤ _ := abs_add_le _ _
    _ ≤ (Real.sqrt c + E / Real.sqrt c) / 2 ^ 53 + E / Real.sqrt c := add_le_add (h1.trans h4) h2
    _ = _ := by ring

/-- `v` is close to the root of `c`, where `E` is the error of the square: the error is at most the root of `E` and one
rounding, and if `c` is positive at most `E` divided by the root of `c` and one rounding. -/
def RootClose (v : ℚ) (c E : ℝ) : Prop :=
  |(v : ℝ) - Real.sqrt c| ≤ (1 + 1 / 2 ^ 53) * Real.sqrt E + Real.sqrt c / 2 ^ 53 ∧
  (0 < c → |(v : ℝ) - Real.sqrt c| ≤ (1 + 1 / 2 ^ 53) * (E / Real.sqrt c) + Real.sqrt c / 2 ^ 53)

theorem rootClose (h : IsFloat64 sqrt sum dot) {w : ℚ} {c E : ℝ} (hE : |(w : ℝ) - c| ≤ E) :
    RootClose ((binary64 sqrt sum dot).sqrtClip w) c E := ⟨root_error h hE, fun hc => root_error_pos h hc hE⟩

/-! ### The three methods -/

/-- C94 for the naive method: distance covariance and distance standard deviations, with the bounds of C72. -/
theorem C94_naive (h : IsFloat64 sqrt sum dot) (hn : 0 < n) (x : Fin n → Fin p → ℚ) (y : Fin n → Fin q → ℚ) {A B : ℝ}
    (hA : ∀ i j, realDist x i j ≤ A) (hB : ∀ i j, realDist y i j ≤ B) (hK : n ^ 2 + 4 * n + max p q + 16 ≤ 2 ^ 53) :
    RootClose ((binary64 sqrt sum dot).rootStats ((binary64 sqrt sum dot).naiveStats false x y)).cov
      (Spec.dcovSqr (realDist x) (realDist y)) (8 * (n ^ 2 + 4 * n + max p q + 16 : ℕ) * A * B / 2 ^ 53) ∧
    RootClose ((binary64 sqrt sum dot).rootStats ((binary64 sqrt sum dot).naiveStats false x y)).varX
      (Spec.dcovSqr (realDist x) (realDist x)) (8 * (n ^ 2 + 4 * n + max p q + 16 : ℕ) * A * A / 2 ^ 53) ∧
    RootClose ((binary64 sqrt sum dot).rootStats ((binary64 sqrt sum dot).naiveStats false x y)).varY
      (Spec.dcovSqr (realDist y) (realDist y)) (8 * (n ^ 2 + 4 * n + max p q + 16 : ℕ) * B * B / 2 ^ 53) := by
  obtain ⟨e1, e2, e3⟩ := C72_naive_accuracy_partial h hn x y hA hB hK
  exact ⟨rootClose h e1, rootClose h e2, rootClose h e3⟩

/-- C94 for the distance correlation of the naive method, under the conditions of C84. -/
theorem C94_naive_correlation (h : IsFloat64 sqrt sum dot) (hn : 0 < n) (x : Fin n → Fin p → ℚ) (y : Fin n → Fin q → ℚ)
    {A B r : ℝ} (hA : ∀ i j, realDist x i j ≤ A) (hB : ∀ i j, realDist y i j ≤ B)
    (hK : n ^ 2 + 4 * n + max p q + 16 ≤ 2 ^ 53) (hr : r ≤ 1 / 4)
    (hx0 : 0 < Spec.dcovSqr (realDist x) (realDist x)) (hy0 : 0 < Spec.dcovSqr (realDist y) (realDist y))
    (hx : 8 * (n ^ 2 + 4 * n + max p q + 16 : ℕ) * A * A / 2 ^ 53 ≤ r * Spec.dcovSqr (realDist x) (realDist x))
    (hy : 8 * (n ^ 2 + 4 * n + max p q + 16 : ℕ) * B * B / 2 ^ 53 ≤ r * Spec.dcovSqr (realDist y) (realDist y)) :
    RootClose ((binary64 sqrt sum dot).rootStats ((binary64 sqrt sum dot).naiveStats false x y)).corr
      (Spec.dcorSqr (realDist x) (realDist y)) (3 * r + 6 / 2 ^ 53) :=
  rootClose h (C84_naive_partial h hn x y hA hB hK hr hx0 hy0 hx hy).1

/-- C94 for the AVL method; `X` and `Y` bound the observations, as in C73. -/
theorem C94_avl (h : IsFloat64 sqrt sum dot) (hn : 3 < n) (compiled : Bool)
    {argsort : (Fin n → ℚ) → Equiv.Perm (Fin n)} (hsort : ∀ v : Fin n → ℚ, Monotone fun i => v (argsort v i))
    {x y : Fin n → ℚ} {X Y : ℚ} (fx : ∀ i, round64 (x i) = x i) (fy : ∀ i, round64 (y i) = y i)
    (hx : ∀ i, |x i| ≤ X) (hy : ∀ i, |y i| ≤ Y) (hK : 4 * n + 22 ≤ 2 ^ 53) :
    ∃ s, (binary64 sqrt sum dot).avlStats false compiled argsort x y = .ok s ∧
      RootClose ((binary64 sqrt sum dot).rootStats s).cov
        (Spec.dcovSqr (realDist fun i (_ : Fin 1) => x i) (realDist fun i (_ : Fin 1) => y i))
        (328 * (4 * n + 22) * (X * Y) / 2 ^ 53) ∧
      RootClose ((binary64 sqrt sum dot).rootStats s).varX
        (Spec.dcovSqr (realDist fun i (_ : Fin 1) => x i) (realDist fun i (_ : Fin 1) => x i))
        (328 * (4 * n + 22) * (X * X) / 2 ^ 53) ∧
      RootClose ((binary64 sqrt sum dot).rootStats s).varY
        (Spec.dcovSqr (realDist fun i (_ : Fin 1) => y i) (realDist fun i (_ : Fin 1) => y i))
        (328 * (4 * n + 22) * (Y * Y) / 2 ^ 53) := by
  obtain ⟨s, es, e1, e2, e3⟩ := C73_avl_accuracy h hn compiled hsort fx fy hx hy hK
  exact ⟨s, es, rootClose h e1, rootClose h e2, rootClose h e3⟩

/-- C94 for the distance correlation of the AVL method, under the conditions of C84. -/
theorem C94_avl_correlation (h : IsFloat64 sqrt sum dot) (hn : 3 < n) (compiled : Bool)
    {argsort : (Fin n → ℚ) → Equiv.Perm (Fin n)} (hsort : ∀ v : Fin n → ℚ, Monotone fun i => v (argsort v i))
    {x y : Fin n → ℚ} {X Y : ℚ} {r : ℝ} (fx : ∀ i, round64 (x i) = x i) (fy : ∀ i, round64 (y i) = y i)
    (hX : ∀ i, |x i| ≤ X) (hY : ∀ i, |y i| ≤ Y) (hK : 4 * n + 22 ≤ 2 ^ 53) (hr : r ≤ 1 / 4)
    (hx0 : 0 < Spec.dcovSqr (realDist fun i (_ : Fin 1) => x i) (realDist fun i (_ : Fin 1) => x i))
    (hy0 : 0 < Spec.dcovSqr (realDist fun i (_ : Fin 1) => y i) (realDist fun i (_ : Fin 1) => y i))
    (hx : 328 * (4 * n + 22) * (X * X : ℝ) / 2 ^ 53
      ≤ r * Spec.dcovSqr (realDist fun i (_ : Fin 1) => x i) (realDist fun i (_ : Fin 1) => x i))
    (hy : 328 * (4 * n + 22) * (Y * Y : ℝ) / 2 ^ 53
      ≤ r * Spec.dcovSqr (realDist fun i (_ : Fin 1) => y i) (realDist fun i (_ : Fin 1) => y i)) :
    ∃ s, (binary64 sqrt sum dot).avlStats false compiled argsort x y = .ok s ∧
      RootClose ((binary64 sqrt sum dot).rootStats s).corr
        (Spec.dcorSqr (realDist fun i (_ : Fin 1) => x i) (realDist fun i (_ : Fin 1) => y i)) (3 * r + 6 / 2 ^ 53) := by
  obtain ⟨s, es, e, -, -⟩ := C84_avl_partial h hn compiled hsort fx fy hX hY hK hr hx0 hy0 hx hy
  exact ⟨s, es, rootClose h e⟩

/-- C94 for the mergesort method. -/
theorem C94_mergesort (h : IsFloat64 sqrt sum dot) (hn : 0 < n)
    {argsort : (Fin n → ℚ) → Equiv.Perm (Fin n)} (hsort : ∀ v : Fin n → ℚ, Monotone fun i => v (argsort v i))
    {x y : Fin n → ℚ} {X Y : ℚ} (hx : ∀ i, |x i| ≤ X) (hy : ∀ i, |y i| ≤ Y) (hK : 4 * n + 22 ≤ 2 ^ 53) :
    ∃ s, (binary64 sqrt sum dot).mergesortStats false (fun a b => decide (b ≤ a)) argsort x y = .ok s ∧
      RootClose ((binary64 sqrt sum dot).rootStats s).cov
        (Spec.dcovSqr (realDist fun i (_ : Fin 1) => x i) (realDist fun i (_ : Fin 1) => y i))
        ((64 * Nat.clog 2 n + 232) * (4 * n + 22) * (X * Y) / 2 ^ 53) ∧
      RootClose ((binary64 sqrt sum dot).rootStats s).varX
        (Spec.dcovSqr (realDist fun i (_ : Fin 1) => x i) (realDist fun i (_ : Fin 1) => x i))
        ((64 * Nat.clog 2 n + 232) * (4 * n + 22) * (X * X) / 2 ^ 53) ∧
      RootClose ((binary64 sqrt sum dot).rootStats s).varY
        (Spec.dcovSqr (realDist fun i (_ : Fin 1) => y i) (realDist fun i (_ : Fin 1) => y i))
        ((64 * Nat.clog 2 n + 232) * (4 * n + 22) * (Y * Y) / 2 ^ 53) := by
  obtain ⟨s, es, e1, e2, e3⟩ := C73_mergesort_accuracy h hn hsort hx hy hK
  exact ⟨s, es, rootClose h e1, rootClose h e2, rootClose h e3⟩

/-- C94 for the distance correlation of the mergesort method, under the conditions of C84. -/
theorem C94_mergesort_correlation (h : IsFloat64 sqrt sum dot) (hn : 0 < n)
    {argsort : (Fin n → ℚ) → Equiv.Perm (Fin n)} (hsort : ∀ v : Fin n → ℚ, Monotone fun i => v (argsort v i))
    {x y : Fin n → ℚ} {X Y : ℚ} {r : ℝ} (hX : ∀ i, |x i| ≤ X) (hY : ∀ i, |y i| ≤ Y) (hK : 4 * n + 22 ≤ 2 ^ 53)
    (hr : r ≤ 1 / 4)
    (hx0 : 0 < Spec.dcovSqr (realDist fun i (_ : Fin 1) => x i) (realDist fun i (_ : Fin 1) => x i))
    (hy0 : 0 < Spec.dcovSqr (realDist fun i (_ : Fin 1) => y i) (realDist fun i (_ : Fin 1) => y i))
    (hx : (64 * Nat.clog 2 n + 232) * (4 * n + 22) * (X * X : ℝ) / 2 ^ 53
      ≤ r * Spec.dcovSqr (realDist fun i (_ : Fin 1) => x i) (realDist fun i (_ : Fin 1) => x i))
    (hy : (64 * Nat.clog 2 n + 232) * (4 * n + 22) * (Y * Y : ℝ) / 2 ^ 53
      ≤ r * Spec.dcovSqr (realDist fun i (_ : Fin 1) => y i) (realDist fun i (_ : Fin 1) => y i)) :
    ∃ s, (binary64 sqrt sum dot).mergesortStats false (fun a b => decide (b ≤ a)) argsort x y = .ok s ∧
      RootClose ((binary64 sqrt sum dot).rootStats s).corr
        (Spec.dcorSqr (realDist fun i (_ : Fin 1) => x i) (realDist fun i (_ : Fin 1) => y i)) (3 * r + 6 / 2 ^ 53) := by
  obtain ⟨s, es, e, -, -⟩ := C84_mergesort_partial h hn hsort hX hY hK hr hx0 hy0 hx hy
  exact ⟨s, es, rootClose h e⟩

/-- C94: the roots are never negative, and they are zero if the computed squared statistic is not positive; no rounding of the
squared statistics makes the square root fail. -/
theorem C94_clipped (h : IsFloat64 sqrt sum dot) (s : Arith.StatsSqr ℚ) :
    (0 ≤ ((binary64 sqrt sum dot).rootStats s).cov ∧ 0 ≤ ((binary64 sqrt sum dot).rootStats s).corr ∧
      0 ≤ ((binary64 sqrt sum dot).rootStats s).varX ∧ 0 ≤ ((binary64 sqrt sum dot).rootStats s).varY) ∧
    (s.cov ≤ 0 ↔ ((binary64 sqrt sum dot).rootStats s).cov = 0) ∧
    (s.corr ≤ 0 ↔ ((binary64 sqrt sum dot).rootStats s).corr = 0) ∧
    (s.varX ≤ 0 ↔ ((binary64 sqrt sum dot).rootStats s).varX = 0) ∧
    (s.varY ≤ 0 ↔ ((binary64 sqrt sum dot).rootStats s).varY = 0) := by
  have one : ∀ w : ℚ, 0 ≤ (binary64 sqrt sum dot).sqrtClip w ∧ (w ≤ 0 ↔ (binary64 sqrt sum dot).sqrtClip w = 0) := by
    intro w
    have e := sqrtClip_error h w
    have r0 := Real.sqrt_nonneg (w : ℝ)
    have lt : Real.sqrt w / 2 ^ 53 ≤ Real.sqrt w / 2 := by
      apply div_le_div_of_nonneg_left r0 <;> norm_num
    obtain ⟨e1, e2⟩ := abs_le.1 e
    refine ⟨?_, fun hw => ?_, fun hw => ?_⟩
    · have : (0 : ℝ) ≤ (binary64 sqrt sum dot).sqrtClip w := by linarith
      exact_mod_cast this
    · have hw' : (w : ℝ) ≤ 0 := by exact_mod_cast hw
      rw [Real.sqrt_eq_zero_of_nonpos hw', zero_div, sub_zero] at e
      exact_mod_cast abs_nonpos_iff.1 e
    · by_contra hc
      have hw' : (0 : ℝ) < w := by exact_mod_cast not_le.1 hc
      have := Real.sqrt_pos.2 hw'
      rw [hw, Rat.cast_zero] at e1
      linarith
  exact ⟨⟨(one _).1, (one _).1, (one _).1, (one _).1⟩, (one _).2, (one _).2, (one _).2, (one _).2⟩

/-! ### Concrete samples -/

theorem corrXY_cov : Spec.dcovSqr (realDist fun i (_ : Fin 1) => corrX i) (realDist fun i (_ : Fin 1) => corrY i)
    = 13/32 := by
  unfold realDist
  rw [← exactFrom_biased (by norm_num)]
  have : exactFrom 4 false (absTerms corrX corrY).meanProd (absTerms corrX corrY).aAxis (absTerms corrX corrY).aTotal
      (absTerms corrX corrY).bAxis (absTerms corrX corrY).bTotal = 13/32 := by decide +kernel
  rw [this]; push_cast; norm_num

theorem sqrt_small {a b : ℝ} (hb : 0 ≤ b) (h : a ≤ b ^ 2) : Real.sqrt a ≤ b := Real.sqrt_le_iff.2 ⟨hb, h⟩

/-- With `x = 0, 1, 2, 4` and `y = 1, 3, 0, 2` the error of the distance covariance is at most `10 ** -11`. -/
example : |(((binary64 sqrt64 numpySum seqDot64).rootStats ((binary64 sqrt64 numpySum seqDot64).naiveStats false
      (fun i (_ : Fin 1) => corrX i) (fun i (_ : Fin 1) => corrY i))).cov : ℝ) - Real.sqrt (13 / 32)| ≤ 1 / 10 ^ 11 := by
  have e := (C94_naive float64_numpy (by norm_num) (fun i (_ : Fin 1) => corrX i) (fun i (_ : Fin 1) => corrY i)
    corrX_dist corrY_dist (by norm_num)).1
  rw [corrXY_cov] at e
  refine (e.2 (by norm_num)).trans ?_
  have l : 1 / 2 ≤ Real.sqrt (13 / 32) := Real.le_sqrt_of_sq_le (by norm_num)
  have u : Real.sqrt (13 / 32) ≤ 1 := sqrt_small (by norm_num) (by norm_num)
  have d : (8 * ((4 ^ 2 + 4 * 4 + max 1 1 + 16 : ℕ) : ℝ) * 4 * 3 / 2 ^ 53) / Real.sqrt (13 / 32)
      ≤ (8 * ((4 ^ 2 + 4 * 4 + max 1 1 + 16 : ℕ) : ℝ) * 4 * 3 / 2 ^ 53) / (1 / 2) :=
    div_le_div_of_nonneg_left (by positivity) (by norm_num) l
  have d' : (8 * ((4 ^ 2 + 4 * 4 + max 1 1 + 16 : ℕ) : ℝ) * 4 * 3 / 2 ^ 53) / (1 / 2) ≤ 2 / 10 ^ 12 := by norm_num
  nlinarith

example : RootClose ((binary64 sqrt64 numpySum seqDot64).rootStats ((binary64 sqrt64 numpySum seqDot64).naiveStats false
      (fun i (_ : Fin 1) => corrX i) (fun i (_ : Fin 1) => corrY i))).corr
    (Spec.dcorSqr (realDist fun i (_ : Fin 1) => corrX i) (realDist fun i (_ : Fin 1) => corrY i))
    (3 * (1 / 10 ^ 11) + 6 / 2 ^ 53) :=
  C94_naive_correlation (r := 1 / 10 ^ 11) float64_numpy (by norm_num) _ _ corrX_dist corrY_dist (by norm_num)
    (by norm_num) (by rw [corrX_var]; norm_num) (by rw [corrY_var]; norm_num) (by rw [corrX_var]; norm_num)
    (by rw [corrY_var]; norm_num)

example {argsort : (Fin 4 → ℚ) → Equiv.Perm (Fin 4)} (hsort : ∀ v : Fin 4 → ℚ, Monotone fun i => v (argsort v i)) :
    ∃ s, (binary64 sqrt64 seqSum64 seqDot64).avlStats false true argsort corrX corrY = .ok s ∧
      RootClose ((binary64 sqrt64 seqSum64 seqDot64).rootStats s).cov (13 / 32)
        (328 * (4 * (4 : ℕ) + 22) * ((4 : ℚ) * (3 : ℚ)) / 2 ^ 53) := by
  obtain ⟨s, e, h, -⟩ := C94_avl (x := corrX) (y := corrY) (X := 4) (Y := 3) float64_seq.1 (by norm_num) true hsort
    (by decide +kernel) (by decide +kernel) (by decide +kernel) (by decide +kernel) (by norm_num)
  rw [corrXY_cov] at h
  exact ⟨s, e, h⟩

example {argsort : (Fin 4 → ℚ) → Equiv.Perm (Fin 4)} (hsort : ∀ v : Fin 4 → ℚ, Monotone fun i => v (argsort v i)) :
    ∃ s, (binary64 sqrt64 seqSum64 seqDot64).avlStats false true argsort corrX corrY = .ok s ∧
      RootClose ((binary64 sqrt64 seqSum64 seqDot64).rootStats s).corr
        (Spec.dcorSqr (realDist fun i (_ : Fin 1) => corrX i) (realDist fun i (_ : Fin 1) => corrY i))
        (3 * (1 / 10 ^ 8) + 6 / 2 ^ 53) :=
  C94_avl_correlation (r := 1 / 10 ^ 8) (x := corrX) (y := corrY) (X := 4) (Y := 3) float64_seq.1
    (by norm_num) true hsort (by decide +kernel) (by decide +kernel) (by decide +kernel) (by decide +kernel)
    (by norm_num) (by norm_num) (by rw [corrX_var]; norm_num) (by rw [corrY_var]; norm_num)
    (by rw [corrX_var]; norm_num) (by rw [corrY_var]; norm_num)

example {argsort : (Fin 4 → ℚ) → Equiv.Perm (Fin 4)} (hsort : ∀ v : Fin 4 → ℚ, Monotone fun i => v (argsort v i)) :
    ∃ s, (binary64 sqrt64 seqSum64 seqDot64).mergesortStats false (fun a b => decide (b ≤ a)) argsort corrX corrY = .ok s ∧
      RootClose ((binary64 sqrt64 seqSum64 seqDot64).rootStats s).cov (13 / 32)
        ((64 * Nat.clog 2 4 + 232) * (4 * (4 : ℕ) + 22) * ((4 : ℚ) * (3 : ℚ)) / 2 ^ 53) := by
  obtain ⟨s, e, h, -⟩ := C94_mergesort (x := corrX) (y := corrY) (X := 4) (Y := 3) float64_seq.1 (by norm_num) hsort
    (by decide +kernel) (by decide +kernel) (by norm_num)
  rw [corrXY_cov] at h
  exact ⟨s, e, h⟩

example {argsort : (Fin 4 → ℚ) → Equiv.Perm (Fin 4)} (hsort : ∀ v : Fin 4 → ℚ, Monotone fun i => v (argsort v i)) :
    ∃ s, (binary64 sqrt64 seqSum64 seqDot64).mergesortStats false (fun a b => decide (b ≤ a)) argsort corrX corrY = .ok s ∧
      RootClose ((binary64 sqrt64 seqSum64 seqDot64).rootStats s).corr
        (Spec.dcorSqr (realDist fun i (_ : Fin 1) => corrX i) (realDist fun i (_ : Fin 1) => corrY i))
        (3 * (1 / 10 ^ 8) + 6 / 2 ^ 53) := by
  have hc : Nat.clog 2 4 = 2 := Nat.clog_pow 2 2 (by norm_num)
  exact C94_mergesort_correlation (r := 1 / 10 ^ 8) (x := corrX) (y := corrY) (X := 4) (Y := 3) float64_seq.1
    (by norm_num) hsort (by decide +kernel) (by decide +kernel)
    (by norm_num) (by norm_num) (by rw [corrX_var]; norm_num) (by rw [corrY_var]; norm_num)
    (by rw [corrX_var, hc]; norm_num) (by rw [corrY_var, hc]; norm_num)

/-! ### Empirically independent samples -/

/-- The double-centred matrix of a function of one factor of a full factorial design. -/
theorem centre_factor {a m : ℕ} (d : Fin a → Fin a → ℝ) (hm : 0 < m) (g : Fin n → Fin a)
    (hg : ∀ f : Fin a → ℝ, ∑ i, f (g i) = m * ∑ u, f u) (hn : n = a * m) (i j : Fin n) :
    Spec.centre (fun i j => d (g i) (g j)) i j = Spec.centre d (g i) (g j) := by
  have ha : 0 < a := (g i).pos
  unfold Spec.centre
  rw [hg (fun u => d (g i) u), hg (fun u => d u (g j))]
  have e : ∑ k, ∑ l, d (g k) (g l) = m * (m * ∑ u, ∑ v, d u v) := by
    calc _ = ∑ k, m * ∑ v, d (g k) v := Finset.sum_congr rfl fun k _ => hg _
      _ = m * ∑ k, ∑ v, d (g k) v := by rw [Finset.mul_sum]
      _ = _ := by rw [hg fun u => ∑ v, d u v]
  have hn' : (n : ℝ) = a * m := by exact_mod_cast hn
  have m0 : (m : ℝ) ≠ 0 := by positivity
  have a0 : (a : ℝ) ≠ 0 := by positivity
  rw [e, hn']
  field_simp

/-- A full factorial design has distance covariance zero. -/
theorem dcovSqr_factorial {a b : ℕ} (d : Fin a → Fin a → ℝ) (e : Fin b → Fin b → ℝ) :
    Spec.dcovSqr (fun i j : Fin (a * b) => d (finProdFinEquiv.symm i).1 (finProdFinEquiv.symm j).1)
      (fun i j => e (finProdFinEquiv.symm i).2 (finProdFinEquiv.symm j).2) = 0 := by
  rcases Nat.eq_zero_or_pos a with rfl | ha
  · unfold Spec.dcovSqr
    rw [Finset.sum_eq_zero, zero_div]
    intro i _
    exact ((finProdFinEquiv.symm i).1).elim0
  rcases Nat.eq_zero_or_pos b with rfl | hb
  · unfold Spec.dcovSqr
    rw [Finset.sum_eq_zero, zero_div]
    intro i _
    exact ((finProdFinEquiv.symm i).2).elim0
  have h1 : ∀ f : Fin a → ℝ, ∑ i : Fin (a * b), f (finProdFinEquiv.symm i).1 = b * ∑ u, f u := by
    intro f
    rw [Equiv.sum_comp finProdFinEquiv.symm (fun p : Fin a × Fin b => f p.1), Fintype.sum_prod_type]
    simp [Finset.mul_sum]
  have h2 : ∀ f : Fin b → ℝ, ∑ i : Fin (a * b), f (finProdFinEquiv.symm i).2 = a * ∑ u, f u := by
    intro f
    rw [Equiv.sum_comp finProdFinEquiv.symm (fun p : Fin a × Fin b => f p.2), Fintype.sum_prod_type]
    simp
  unfold Spec.dcovSqr
  rw [div_eq_zero_iff]
  left
  calc _ = ∑ i : Fin (a * b), ∑ j : Fin (a * b), Spec.centre d (finProdFinEquiv.symm i).1 (finProdFinEquiv.symm j).1
        * Spec.centre e (finProdFinEquiv.symm i).2 (finProdFinEquiv.symm j).2 := by
        refine Finset.sum_congr rfl fun i _ => Finset.sum_congr rfl fun j _ => ?_
        rw [centre_factor d hb (fun i => (finProdFinEquiv.symm i).1) h1 rfl,
          centre_factor e ha (fun i => (finProdFinEquiv.symm i).2) h2 (mul_comm a b)]
    _ = ∑ i : Fin (a * b), ∑ u, ∑ v, Spec.centre d (finProdFinEquiv.symm i).1 u * Spec.centre e (finProdFinEquiv.symm i).2 v := by
        refine Finset.sum_congr rfl fun i _ => ?_
        rw [Equiv.sum_comp finProdFinEquiv.symm (fun p : Fin a × Fin b => Spec.centre d (finProdFinEquiv.symm i).1 p.1
          * Spec.centre e (finProdFinEquiv.symm i).2 p.2), Fintype.sum_prod_type]
    _ = 0 := by
        refine Finset.sum_eq_zero fun i _ => Finset.sum_eq_zero fun u _ => ?_
        rw [← Finset.mul_sum, Spec.sum_centre_row, mul_zero]

/-- A full factorial design with three values for `x` and four for `y`. -/
def facX : Fin (3 * 4) → Fin 1 → ℚ := fun i _ => (![0, 1, 2] : Fin 3 → ℚ) (finProdFinEquiv.symm i).1

@[inherit_doc facX]
def facY : Fin (3 * 4) → Fin 1 → ℚ := fun i _ => (![0, 1, 5, 7] : Fin 4 → ℚ) (finProdFinEquiv.symm i).2

/-- C94: the root of the rounding error is what one gets: the twelve pairs of a number in `0, 1, 2` and a number in
`0, 1, 5, 7` have distance covariance zero, but the computed distance covariance and distance correlation are more than
`10 ** -8`, both with sums from left to right and with the pairwise sums of NumPy. -/
theorem C94_independent_not_zero :
    Spec.dcovSqr (realDist facX) (realDist facY) = 0 ∧
    1 / 10 ^ 8 < ((binary64 sqrt64 numpySum seqDot64).rootStats
      ((binary64 sqrt64 numpySum seqDot64).naiveStats false facX facY)).cov ∧
    1 / 10 ^ 8 < ((binary64 sqrt64 numpySum seqDot64).rootStats
      ((binary64 sqrt64 numpySum seqDot64).naiveStats false facX facY)).corr ∧
    1 / 10 ^ 8 < ((binary64 sqrt64 seqSum64 seqDot64).rootStats
      ((binary64 sqrt64 seqSum64 seqDot64).naiveStats false facX facY)).cov ∧
    1 / 10 ^ 8 < ((binary64 sqrt64 seqSum64 seqDot64).rootStats
      ((binary64 sqrt64 seqSum64 seqDot64).naiveStats false facX facY)).corr := by
  refine ⟨?_, by decide +kernel, by decide +kernel, by decide +kernel, by decide +kernel⟩
  exact dcovSqr_factorial (Spec.distMat 1 fun u (_ : Fin 1) => (((![0, 1, 2] : Fin 3 → ℚ) u : ℚ) : ℝ))
    (Spec.distMat 1 fun v (_ : Fin 1) => (((![0, 1, 5, 7] : Fin 4 → ℚ) v : ℚ) : ℝ))

end Dcor.Props

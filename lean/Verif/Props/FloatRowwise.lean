/-
C109: the optimised row-wise functions in `float64`.
-/
import Verif.Proofs.FloatRowwise
import Verif.Props.FloatCorr
import Verif.Props.NonFinite
import Verif.Props.Overflow
import Verif.Props.Float
import Verif.Proofs.FloatTTest

namespace Dcor.Props

open F64

variable {n k : ℕ}

/-! ### The covariances -/

section Any

variable {R : Type} (A : Arith R) {unbiased : Bool} {argsort : (Fin n → R) → Equiv.Perm (Fin n)}

theorem rowCovariance_of_stats {x y : Fin n → R} {s : Arith.StatsSqr R}
    (h : A.avlStats unbiased true argsort x y = .ok s) : A.rowCovariance unbiased argsort x y = .ok s.cov := by
  unfold Arith.avlStats at h
  unfold Arith.rowCovariance
  cases e : A.avlTerms true argsort x y with
  | error err => rw [e] at h; cases h
  | ok t => rw [e] at h; cases h; rfl

/-- C109 for the covariances: in any arithmetic, whatever its rounding errors, every entry of the row-wise covariance is
bit for bit the covariance that the compiled AVL method computes for the two rows alone. -/
theorem C109_covariance {X Y : Fin k → Fin n → R} {s : Fin k → Arith.StatsSqr R}
    (h : ∀ i, A.avlStats unbiased true argsort (X i) (Y i) = .ok (s i)) :
    A.rowwiseCovariance unbiased argsort (List.ofFn X) (List.ofFn Y) = .ok (List.ofFn fun i => (s i).cov) :=
  rowwiseCovariance_eq A fun i => rowCovariance_of_stats A (h i)

/-- The correlations are quotients of such covariances, of the rows with each other and with themselves. -/
theorem rowwiseCorrelation_of_stats {X Y : Fin k → Fin n → R} {s sx sy : Fin k → Arith.StatsSqr R}
    (h : ∀ i, A.avlStats unbiased true argsort (X i) (Y i) = .ok (s i))
    (hx : ∀ i, A.avlStats unbiased true argsort (X i) (X i) = .ok (sx i))
    (hy : ∀ i, A.avlStats unbiased true argsort (Y i) (Y i) = .ok (sy i)) :
    A.rowwiseCorrelation unbiased argsort (List.ofFn X) (List.ofFn Y)
      = .ok (List.ofFn fun i => A.rowQuotient (s i).cov (sx i).cov (sy i).cov) :=
  rowwiseCorrelation_eq A (fun i => rowCovariance_of_stats A (h i)) (fun i => rowCovariance_of_stats A (hx i))
    (fun i => rowCovariance_of_stats A (hy i))

end Any

/-! ### Accuracy of the correlations -/

section Accuracy

variable {sqrt : ℚ → ℚ} {sum : List ℚ → ℚ} {dot : List (ℚ × ℚ) → ℚ}

theorem row_close (h : IsFloat64 sqrt sum dot) {c' vx' vy' : ℚ} {c vx vy EX EY E r : ℝ} (hx0 : 0 < vx) (hy0 : 0 < vy)
    (hr : r ≤ 1 / 4) (hEE : E ^ 2 = EX * EY) (hc : |(c' : ℝ) - c| ≤ E) (hvx : |(vx' : ℝ) - vx| ≤ EX)
    (hvy : |(vy' : ℝ) - vy| ≤ EY) (hx : EX ≤ r * vx) (hy : EY ≤ r * vy) (hcs : c ^ 2 ≤ vx * vy) :
    |((binary64 sqrt sum dot).rowQuotient c' vx' vy' : ℝ) - Spec.ratio c vx vy| ≤ 3 * r + 8 / 2 ^ 53 := by
  have r0 : 0 ≤ r := nonneg_of_mul_nonneg_left (((abs_nonneg _).trans hvx).trans hx) hx0
  refine row_quotient_error h hx0 hy0 hr (hc.trans ?_) (hvx.trans hx) (hvy.trans hy) (Real.abs_le_sqrt hcs)
  rw [← Real.sqrt_sq r0, ← Real.sqrt_mul (sq_nonneg r)]
  apply Real.le_sqrt_of_sq_le
  rw [hEE]
  calc EX * EY ≤ (r * vx) * (r * vy) := mul_le_mul hx hy ((abs_nonneg _).trans hvy) (by positivity)
    _ = r ^ 2 * (vx * vy) := by ring

/-- C109 for the biased correlations: if, for every pair of rows, the error bounds of C73 for the two variances are at most
a fraction `r i ≤ 1 / 4` of the exact variances, then every entry is within `3 * r i + 8 * 2 ** -53` of the exact squared
distance correlation of its two rows, and within `6 * r i + 14 * 2 ** -53` of what the function itself computes for them.
What is missing is equality with the result of the function, which `C109_self_correlation` refutes, and rows for which the
variances are not accurate, where `C109_constant_row` and `C109_large_offset` show that the results are unrelated. -/
theorem C109_correlation_partial (h : IsFloat64 sqrt sum dot) (hn : 3 < n)
    {argsort : (Fin n → ℚ) → Equiv.Perm (Fin n)} (hsort : ∀ v : Fin n → ℚ, Monotone fun i => v (argsort v i))
    {x y : Fin k → Fin n → ℚ} {X Y : Fin k → ℚ} {r : Fin k → ℝ} (fx : ∀ l i, round64 (x l i) = x l i)
    (fy : ∀ l i, round64 (y l i) = y l i) (hX : ∀ l i, |x l i| ≤ X l) (hY : ∀ l i, |y l i| ≤ Y l)
    (hK : 4 * n + 22 ≤ 2 ^ 53) (hr : ∀ l, r l ≤ 1 / 4)
    (hx0 : ∀ l, 0 < Spec.dcovSqr (realDist fun i (_ : Fin 1) => x l i) (realDist fun i (_ : Fin 1) => x l i))
    (hy0 : ∀ l, 0 < Spec.dcovSqr (realDist fun i (_ : Fin 1) => y l i) (realDist fun i (_ : Fin 1) => y l i))
    (hx : ∀ l, 328 * (4 * n + 22) * (X l * X l : ℝ) / 2 ^ 53
      ≤ r l * Spec.dcovSqr (realDist fun i (_ : Fin 1) => x l i) (realDist fun i (_ : Fin 1) => x l i))
    (hy : ∀ l, 328 * (4 * n + 22) * (Y l * Y l : ℝ) / 2 ^ 53
      ≤ r l * Spec.dcovSqr (realDist fun i (_ : Fin 1) => y l i) (realDist fun i (_ : Fin 1) => y l i)) :
    ∃ z : Fin k → ℚ, ∃ s : Fin k → Arith.StatsSqr ℚ,
      (binary64 sqrt sum dot).rowwiseCorrelation false argsort (List.ofFn x) (List.ofFn y) = .ok (List.ofFn z) ∧
      ∀ l, (binary64 sqrt sum dot).avlStats false true argsort (x l) (y l) = .ok (s l) ∧
        |(z l : ℝ) - Spec.dcorSqr (realDist fun i (_ : Fin 1) => x l i) (realDist fun i (_ : Fin 1) => y l i)|
          ≤ 3 * r l + 8 / 2 ^ 53 ∧
        |(z l : ℝ) - (s l).corr| ≤ 6 * r l + 14 / 2 ^ 53 := by
  choose s es e1 e2 e3 using fun l =>
    C73_avl_accuracy h hn true hsort (fx l) (fy l) (hX l) (hY l) hK
  choose sx esx a1 a2 a3 using fun l =>
    C73_avl_accuracy h hn true hsort (fx l) (fx l) (hX l) (hX l) hK
  choose sy esy b1 b2 b3 using fun l =>
    C73_avl_accuracy h hn true hsort (fy l) (fy l) (hY l) (hY l) hK
  refine ⟨_, s, rowwiseCorrelation_of_stats _ es esx esy, fun l => ⟨es l, ?_⟩⟩
  have key := row_close h (hx0 l) (hy0 l) (hr l) (by ring) (e1 l) (a1 l) (b1 l) (hx l) (hy l) (Spec.dcovSqr_cauchy _ _)
  obtain ⟨s', es', f, -⟩ := C84_avl_partial h hn true hsort (fx l) (fy l) (hX l) (hY l) hK (hr l) (hx0 l) (hy0 l)
    (hx l) (hy l)
  obtain rfl : s l = s' := Except.ok.inj ((es l).symm.trans es')
  refine ⟨key, ?_⟩
  have t := abs_sub_le ((binary64 sqrt sum dot).rowQuotient (s l).cov (sx l).cov (sy l).cov : ℝ)
    (Spec.dcorSqr (realDist fun i (_ : Fin 1) => x l i) (realDist fun i (_ : Fin 1) => y l i)) ((s l).corr : ℝ)
  rw [abs_sub_comm (Spec.dcorSqr _ _)] at t
  refine t.trans ((add_le_add key f).trans (le_of_eq ?_))
  ring

/-- C109 for the bias-corrected correlations. -/
theorem C109_correlation_unbiased_partial (h : IsFloat64 sqrt sum dot) (hn : 3 < n)
    {argsort : (Fin n → ℚ) → Equiv.Perm (Fin n)} (hsort : ∀ v : Fin n → ℚ, Monotone fun i => v (argsort v i))
    {x y : Fin k → Fin n → ℚ} {X Y : Fin k → ℚ} {r : Fin k → ℝ} (fx : ∀ l i, round64 (x l i) = x l i)
    (fy : ∀ l i, round64 (y l i) = y l i) (hX : ∀ l i, |x l i| ≤ X l) (hY : ∀ l i, |y l i| ≤ Y l)
    (hK : 4 * n + 22 ≤ 2 ^ 53) (hr : ∀ l, r l ≤ 1 / 4)
    (hx0 : ∀ l, 0 < Spec.uDcovSqr (realDist fun i (_ : Fin 1) => x l i) (realDist fun i (_ : Fin 1) => x l i))
    (hy0 : ∀ l, 0 < Spec.uDcovSqr (realDist fun i (_ : Fin 1) => y l i) (realDist fun i (_ : Fin 1) => y l i))
    (hx : ∀ l, 2368 * (4 * n + 22) * (X l * X l : ℝ) / 2 ^ 53
      ≤ r l * Spec.uDcovSqr (realDist fun i (_ : Fin 1) => x l i) (realDist fun i (_ : Fin 1) => x l i))
    (hy : ∀ l, 2368 * (4 * n + 22) * (Y l * Y l : ℝ) / 2 ^ 53
      ≤ r l * Spec.uDcovSqr (realDist fun i (_ : Fin 1) => y l i) (realDist fun i (_ : Fin 1) => y l i)) :
    ∃ z : Fin k → ℚ, ∃ s : Fin k → Arith.StatsSqr ℚ,
      (binary64 sqrt sum dot).rowwiseCorrelation true argsort (List.ofFn x) (List.ofFn y) = .ok (List.ofFn z) ∧
      ∀ l, (binary64 sqrt sum dot).avlStats true true argsort (x l) (y l) = .ok (s l) ∧
        |(z l : ℝ) - Spec.uDcorSqr (realDist fun i (_ : Fin 1) => x l i) (realDist fun i (_ : Fin 1) => y l i)|
          ≤ 3 * r l + 8 / 2 ^ 53 ∧
        |(z l : ℝ) - (s l).corr| ≤ 6 * r l + 14 / 2 ^ 53 := by
  choose s es e1 e2 e3 using fun l =>
    C73_avl_accuracy_unbiased h hn true hsort (fx l) (fy l) (hX l) (hY l) hK
  choose sx esx a1 a2 a3 using fun l =>
    C73_avl_accuracy_unbiased h hn true hsort (fx l) (fx l) (hX l) (hX l) hK
  choose sy esy b1 b2 b3 using fun l =>
    C73_avl_accuracy_unbiased h hn true hsort (fy l) (fy l) (hY l) (hY l) hK
  refine ⟨_, s, rowwiseCorrelation_of_stats _ es esx esy, fun l => ⟨es l, ?_⟩⟩
  have key := row_close h (hx0 l) (hy0 l) (hr l) (by ring) (e1 l) (a1 l) (b1 l) (hx l) (hy l) (uDcovSqr_cauchy hn _ _)
  obtain ⟨s', es', f, -⟩ := C84_avl_unbiased_partial h hn true hsort (fx l) (fy l) (hX l) (hY l) hK (hr l) (hx0 l)
    (hy0 l) (hx l) (hy l)
  obtain rfl : s l = s' := Except.ok.inj ((es l).symm.trans es')
  refine ⟨key, ?_⟩
  have t := abs_sub_le ((binary64 sqrt sum dot).rowQuotient (s l).cov (sx l).cov (sy l).cov : ℝ)
    (Spec.uDcorSqr (realDist fun i (_ : Fin 1) => x l i) (realDist fun i (_ : Fin 1) => y l i)) ((s l).corr : ℝ)
  rw [abs_sub_comm (Spec.uDcorSqr _ _)] at t
  refine t.trans ((add_le_add key f).trans (le_of_eq ?_))
  ring

/-- Two pairs of rows that meet the hypotheses. -/
example {argsort : (Fin 4 → ℚ) → Equiv.Perm (Fin 4)} (hsort : ∀ v : Fin 4 → ℚ, Monotone fun i => v (argsort v i)) :
    ∃ z : Fin 2 → ℚ, (binary64 sqrt64 seqSum64 seqDot64).rowwiseCorrelation false argsort (List.ofFn ![corrX, corrY])
        (List.ofFn ![corrY, corrX]) = .ok (List.ofFn z) ∧
      |(z 1 : ℝ) - Spec.dcorSqr (realDist fun i (_ : Fin 1) => corrY i) (realDist fun i (_ : Fin 1) => corrX i)|
        ≤ 3 * (1 / 10 ^ 8) + 8 / 2 ^ 53 := by
  obtain ⟨z, s, e, h⟩ := C109_correlation_partial (k := 2) (r := fun _ => 1 / 10 ^ 8) (x := ![corrX, corrY])
    (y := ![corrY, corrX]) (X := ![4, 3]) (Y := ![3, 4]) float64_seq.1 (by norm_num) hsort (by decide +kernel)
    (by decide +kernel) (by decide +kernel) (by decide +kernel) (by norm_num) (by intro l; norm_num)
    (by intro l; fin_cases l <;> simp [corrX_var, corrY_var]) (by intro l; fin_cases l <;> simp [corrX_var, corrY_var])
    (by intro l; fin_cases l <;> simp [corrX_var, corrY_var] <;> norm_num)
    (by intro l; fin_cases l <;> simp [corrX_var, corrY_var] <;> norm_num)
  exact ⟨z, e, (h 1).2.1⟩

end Accuracy

/-! ### Change of units -/

section Units

variable {sqrt : ℚ → ℚ} {sum : List ℚ → ℚ} {dot : List (ℚ × ℚ) → ℚ}

/-- C109, change of units by powers of two, different ones for each row: the correlations do not change. -/
theorem C109_power_of_two (h : Equivariant sqrt sum dot) (hn : 3 < n) (unbiased : Bool)
    (argsort : (Fin n → ℚ) → Equiv.Perm (Fin n))
    (hsort : ∀ (j : ℤ) (v : Fin n → ℚ), (argsort fun l => 2 ^ j * v l) = argsort v) (i j : Fin k → ℤ)
    (x y : Fin k → Fin n → ℚ) :
    (binary64 sqrt sum dot).rowwiseCorrelation unbiased argsort (List.ofFn fun l m => 2 ^ i l * x l m)
        (List.ofFn fun l m => 2 ^ j l * y l m)
      = (binary64 sqrt sum dot).rowwiseCorrelation unbiased argsort (List.ofFn x) (List.ofFn y) := by
  choose s e1 f1 using fun l => C71_power_of_two_avl h (i l) (j l) unbiased argsort hsort (x l) (y l) hn true
  choose sx e2 f2 using fun l => C71_power_of_two_avl h (i l) (i l) unbiased argsort hsort (x l) (x l) hn true
  choose sy e3 f3 using fun l => C71_power_of_two_avl h (j l) (j l) unbiased argsort hsort (y l) (y l) hn true
  rw [rowwiseCorrelation_of_stats _ e1 e2 e3, rowwiseCorrelation_of_stats _ f1 f2 f3]
  congr 2
  funext l
  unfold Arith.rowQuotient rescaled
  simp only [isNan_binary64, Bool.false_eq_true, if_false, scale_sqrtClip h]
  show round64 (round64 _ / _) = round64 (round64 _ / _)
  rw [show (2 : ℚ) ^ (i l + j l) * (s l).cov / (2 ^ i l * (binary64 sqrt sum dot).sqrtClip (sx l).cov)
    = 2 ^ j l * ((s l).cov / (binary64 sqrt sum dot).sqrtClip (sx l).cov) by
      rw [zpow_add₀ (by norm_num), mul_assoc, mul_div_mul_left _ _ (by positivity), mul_div_assoc],
    round64_scale, mul_div_mul_left _ _ (by positivity)]

end Units

/-! ### Infinities and NaN -/

section Ieee

variable {sqrt : F64 → F64} {sum : List F64 → F64} {dot : List (F64 × F64) → F64}

/-- C109 fails for missing values: the function itself gives NaN for a row with NaN or an infinity, and the row-wise version
gives the correlation zero. -/
theorem C109_missing_is_zero (h : IsIeee64 sqrt sum dot) (hn : 3 < n) (unbiased : Bool)
    (argsort : (Fin n → F64) → Equiv.Perm (Fin n)) (x y : Fin k → Fin n → F64) (l : Fin k)
    (hl : (∃ i, ¬ (x l i).Finite) ∨ ∃ i, ¬ (y l i).Finite) :
    ∃ (z : Fin k → F64) (s : Arith.StatsSqr F64),
      (ieee64 sqrt sum dot).rowwiseCorrelation unbiased argsort (List.ofFn x) (List.ofFn y) = .ok (List.ofFn z) ∧
      z l = fin 0 ∧ (ieee64 sqrt sum dot).avlStats unbiased true argsort (x l) (y l) = .ok s ∧ s.corr = nan := by
  have ok : ∀ a b : Fin n → F64, ∃ s, (ieee64 sqrt sum dot).avlStats unbiased true argsort a b = .ok s := by
    intro a b
    obtain ⟨D, e⟩ := avlTermsWith_safe (ieee64 sqrt sum dot) (Nat.clog 2 n) (Nat.le_pow_clog (by norm_num) n) true
      argsort a b hn
    unfold Arith.avlStats Arith.avlTerms
    rw [e]
    exact ⟨_, rfl⟩
  choose s es using fun l => ok (x l) (y l)
  choose sx esx using fun l => ok (x l) (x l)
  choose sy esy using fun l => ok (y l) (y l)
  have key : (s l).cov = nan ∧ (s l).corr = nan := by
    rcases hl with ⟨i, hi⟩ | ⟨i, hi⟩
    · obtain ⟨r, er, h1, h2, -⟩ := C85_avl_left h unbiased true argsort (x l) (y l) hn i hi
      obtain rfl : s l = r := Except.ok.inj ((es l).symm.trans er)
      exact ⟨h1, h2⟩
    · obtain ⟨r, er, h1, h2, -⟩ := C85_avl_right h unbiased true argsort (x l) (y l) hn i hi
      obtain rfl : s l = r := Except.ok.inj ((es l).symm.trans er)
      exact ⟨h1, h2⟩
  refine ⟨_, s l, rowwiseCorrelation_of_stats _ es esx esy, ?_, es l, key.2⟩
  show Arith.rowQuotient _ (s l).cov _ _ = _
  rw [key.1]
  unfold Arith.rowQuotient
  have e : ∀ a b : F64, (ieee64 sqrt sum dot).div ((ieee64 sqrt sum dot).div nan a) b = nan := by
    intro a b
    show F64.div (F64.div nan a) b = nan
    rw [nan_div, nan_div]
  simp only [e]
  rw [if_pos (by rfl)]
  exact ofInt_zero

example : ∃ i, ¬ (((![nan, fin 1, fin 2, fin 3] : Fin 4 → F64)) i).Finite := ⟨0, id⟩

/-- C109 fails where the computed variance of a row is negative by rounding errors: it is replaced by zero, and any nonzero
covariance gives an infinite correlation. -/
theorem C109_infinite (h : IsIeee64 sqrt sum dot) {c a b : ℚ} (hc : c ≠ 0) (ha : a < 0) :
    (ieee64 sqrt sum dot).rowQuotient (fin c) (fin a) (fin b) = inf (decide (c < 0)) := by
  have z0 : ∀ q : ℚ, q < 0 → (ieee64 sqrt sum dot).sqrtClip (fin q) = fin 0 := by
    intro q hq
    obtain ⟨s, hs, e⟩ := isSqrt_fin h (q := 0) le_rfl
    show sqrt (if F64.lt (fin q) (F64.round ((0 : ℤ) : ℚ)) = true then F64.round ((0 : ℤ) : ℚ) else _) = _
    rw [ofInt_zero, if_pos (by simpa [F64.lt] using hq), e, hs.eq_zero.2 rfl]
  have zb : ∃ s, 0 ≤ s ∧ (ieee64 sqrt sum dot).sqrtClip (fin b) = fin s := by
    by_cases hb : b < 0
    · exact ⟨0, le_rfl, z0 b hb⟩
    · obtain ⟨e, hs⟩ := sqrtClip_ieee (sum := sum) (dot := dot) h (not_lt.1 hb)
      exact ⟨_, hs.nonneg, e⟩
  obtain ⟨s, hs, es⟩ := zb
  have e1 : (ieee64 sqrt sum dot).div (fin c) (fin 0) = inf (decide (c < 0)) := by
    show (if (0 : ℚ) = 0 then if c = 0 then nan else inf (decide (c < 0)) else F64.round (c / 0)) = _
    rw [if_pos rfl, if_neg hc]
  have e2 : (ieee64 sqrt sum dot).div (inf (decide (c < 0))) (fin s) = inf (decide (c < 0)) := by
    show inf (decide (c < 0) != decide (s < 0)) = _
    rw [decide_eq_false (not_lt.2 hs), Bool.bne_false]
  unfold Arith.rowQuotient
  simp only [z0 a ha, es, e1, e2]
  rw [if_neg]
  show ¬ (!(decide (c < 0) == decide (c < 0))) = true
  simp

end Ieee

/-! ### Witnesses, with sums from left to right -/

section Witnesses

theorem avlTerms_sorted {R : Type} (A : Arith R) {argsort : (Fin n → R) → Equiv.Perm (Fin n)} {x y : Fin n → R}
    (hx : argsort x = Equiv.refl _) (hy : argsort y = Equiv.refl _) (compiled : Bool) :
    A.avlTerms compiled argsort x y = A.avlTerms compiled (fun _ => Equiv.refl _) x y := by
  unfold Arith.avlTerms Arith.avlTermsWith
  simp only [hx, hy, Equiv.refl_apply]

theorem rowwiseCorrelation_sorted {R : Type} (A : Arith R) (unbiased : Bool)
    {argsort : (Fin n → R) → Equiv.Perm (Fin n)} {x y : Fin n → R} (hx : argsort x = Equiv.refl _)
    (hy : argsort y = Equiv.refl _) :
    A.rowwiseCorrelation unbiased argsort [x] [y] = A.rowwiseCorrelation unbiased (fun _ => Equiv.refl _) [x] [y] := by
  unfold Arith.rowwiseCorrelation Arith.rowwiseCovariance Arith.rowCovariance
  simp only [List.cons_append, List.nil_append, List.zip_cons_cons, List.mapM_cons, avlTerms_sorted A hx hy,
    avlTerms_sorted A hx hx, avlTerms_sorted A hy hy]
  rfl

theorem avlStats_sorted {R : Type} (A : Arith R) (unbiased : Bool) {argsort : (Fin n → R) → Equiv.Perm (Fin n)}
    {x y : Fin n → R} (hx : argsort x = Equiv.refl _) (hy : argsort y = Equiv.refl _) (compiled : Bool) :
    A.avlStats unbiased compiled argsort x y = A.avlStats unbiased compiled (fun _ => Equiv.refl _) x y := by
  unfold Arith.avlStats
  rw [avlTerms_sorted A hx hy]

/-- The sample `[0, 1, 2, 4]`. -/
def rowX : Fin 4 → F64 := ![fin 0, fin 1, fin 2, fin 4]

/-- C109 fails: the row-wise squared correlation of `[0, 1, 2, 4]` with itself is `1 + 2 ** -52`, and the function itself
gives exactly one. -/
theorem C109_self_correlation (argsort : (Fin 4 → F64) → Equiv.Perm (Fin 4)) (hx : argsort rowX = Equiv.refl _) :
    (ieee64 sqrtSeq sumSeq dotSeq).rowwiseCorrelation false argsort [rowX] [rowX] = .ok [fin (1 + 1 / 2 ^ 52)] ∧
      ((ieee64 sqrtSeq sumSeq dotSeq).avlStats false true argsort rowX rowX).map (fun s => s.corr) = .ok (fin 1) := by
  rw [rowwiseCorrelation_sorted _ _ hx hx, avlStats_sorted _ _ hx hx]
  constructor <;> decide +kernel

/-- The sample `[1.1] * 5`. -/
def constantX : Fin 5 → F64 := fun _ => fin (2476979795053773 / 2251799813685248)

/-- The sample `[1, 2, 3, 5, 7]`. -/
def constantY : Fin 5 → F64 := ![fin 1, fin 2, fin 3, fin 5, fin 7]

/-- C109 fails for a constant row, whose exact correlation with every other row is zero: `[1.1] * 5` and `[1, 2, 3, 5, 7]`
have the row-wise correlation `inf`. -/
theorem C109_constant_row (argsort : (Fin 5 → F64) → Equiv.Perm (Fin 5)) (hx : argsort constantX = Equiv.refl _)
    (hy : argsort constantY = Equiv.refl _) :
    (ieee64 sqrtSeq sumSeq dotSeq).rowwiseCorrelation false argsort [constantX] [constantY] = .ok [inf false] ∧
      (ieee64 sqrtSeq sumSeq dotSeq).rowwiseRoots
        ((ieee64 sqrtSeq sumSeq dotSeq).rowwiseCorrelation false argsort [constantX] [constantY]) = .ok [inf false] := by
  rw [rowwiseCorrelation_sorted _ _ hx hy]
  constructor <;> decide +kernel

/-- The sample `2 ** 30 + [0, 1, 2, 4]`. -/
def offsetX : Fin 4 → F64 := ![fin (2 ^ 30), fin (2 ^ 30 + 1), fin (2 ^ 30 + 2), fin (2 ^ 30 + 4)]

/-- C109 fails for a row with a large offset: the row-wise squared correlation of `2 ** 30 + [0, 1, 2, 4]` with itself,
exactly one, is `-inf`, and the correlation is zero. -/
theorem C109_large_offset (argsort : (Fin 4 → F64) → Equiv.Perm (Fin 4)) (hx : argsort offsetX = Equiv.refl _) :
    (ieee64 sqrtSeq sumSeq dotSeq).rowwiseCorrelation false argsort [offsetX] [offsetX] = .ok [inf true] ∧
      (ieee64 sqrtSeq sumSeq dotSeq).rowwiseRoots
        ((ieee64 sqrtSeq sumSeq dotSeq).rowwiseCorrelation false argsort [offsetX] [offsetX]) = .ok [fin 0] := by
  rw [rowwiseCorrelation_sorted _ _ hx hx]
  constructor <;> decide +kernel

/-- The row-wise function is not affected by the overflow of `C86_avl_large`: for `[0, 1, 2, 3] * 2 ** 300` with itself it
gives `1 + 2 ** -52`, where the function itself gives zero. -/
theorem C109_large_units (argsort : (Fin 4 → F64) → Equiv.Perm (Fin 4)) (hx : argsort largeX = Equiv.refl _) :
    (ieee64 sqrtSeq sumSeq dotSeq).rowwiseCorrelation false argsort [largeX] [largeX] = .ok [fin (1 + 1 / 2 ^ 52)] ∧
      ((ieee64 sqrtSeq sumSeq dotSeq).avlStats false true argsort largeX largeX).map (fun s => s.corr) = .ok (fin 0) := by
  rw [rowwiseCorrelation_sorted _ _ hx hx, avlStats_sorted _ _ hx hx]
  constructor <;> decide +kernel

example : ∃ argsort : (Fin 4 → F64) → Equiv.Perm (Fin 4),
    argsort rowX = Equiv.refl _ ∧ argsort offsetX = Equiv.refl _ ∧ argsort largeX = Equiv.refl _ :=
  ⟨fun _ => Equiv.refl _, rfl, rfl, rfl⟩

end Witnesses

end Dcor.Props

/-
C113: `float32` samples.
-/
import Verif.Model.Float32
import Verif.Proofs.ErrorSingle
import Verif.Props.ErrorBound

namespace Dcor.Props

open Dcor

variable {sqrt : ℚ → ℚ} {sum sum32 : List ℚ → ℚ} {dot : List (ℚ × ℚ) → ℚ} {n : ℕ}

/-! ### C113: accuracy in single precision -/

theorem ErrS_real {K : ℕ} (hK : K ≤ 2 ^ 24) {m q r : ℚ} {v : ℝ} (h : ErrS K m q r) (hv : (q : ℝ) = v) {c : ℚ}
    (hm : m ≤ c) : |(r : ℝ) - v| ≤ 2 * K * c / 2 ^ 24 := by
  have hu : (unit32 : ℝ) = 2 ^ 29 := by
    have := congrArg (Rat.cast (K := ℝ)) unit32_cast
    push_cast at this
    exact this
  have hu' : unit32 = 2 ^ 29 := by exact_mod_cast hu
  have := Err.real (by rw [hu']; exact (Nat.mul_le_mul_left _ hK).trans (by norm_num)) h.toErr hv hm
  refine this.trans (le_of_eq ?_)
  push_cast
  rw [hu]
  field_simp

/-- C113, AVL method on `float32` samples, biased estimator: the squared distance covariance and variances are within
`328 * (4 * n + 22) * 2 ** -24` times `X * Y`, `X * X`, `Y * Y` of the exact ones, where `X` and `Y` bound the
*absolute values* of the observations, for every order of summation. The full claim would bound the error by the distances
between the observations. -/
theorem C113_accuracy_partial (h : ∀ l, SumsTo32 l (sum32 l)) (h64 : IsFloat64 sqrt sum dot) (hn : 3 < n)
    {argsort : (Fin n → ℚ) → Equiv.Perm (Fin n)} (hsort : ∀ v : Fin n → ℚ, Monotone fun i => v (argsort v i))
    {x y : Fin n → ℚ} {X Y : ℚ} (fx : ∀ i, round32 (x i) = x i) (fy : ∀ i, round32 (y i) = y i)
    (hx : ∀ i, |x i| ≤ X) (hy : ∀ i, |y i| ≤ Y) (hK : 4 * n + 22 ≤ 2 ^ 24) :
    ∃ s, Arith.avlStatsSingle (binary32 sum32) (binary64 sqrt sum dot) false argsort x y = .ok s ∧
      |(s.cov : ℝ) - Spec.dcovSqr (realDist fun i (_ : Fin 1) => x i) (realDist fun i (_ : Fin 1) => y i)|
        ≤ 328 * (4 * n + 22) * (X * Y) / 2 ^ 24 ∧
      |(s.varX : ℝ) - Spec.dcovSqr (realDist fun i (_ : Fin 1) => x i) (realDist fun i (_ : Fin 1) => x i)|
        ≤ 328 * (4 * n + 22) * (X * X) / 2 ^ 24 ∧
      |(s.varY : ℝ) - Spec.dcovSqr (realDist fun i (_ : Fin 1) => y i) (realDist fun i (_ : Fin 1) => y i)|
        ≤ 328 * (4 * n + 22) * (Y * Y) / 2 ^ 24 := by
  have hn0 : 0 < n := by omega
  obtain ⟨s, e, e1, e2, e3⟩ := avlStatsSingle_err (bc := false) h h64 hn hsort fx fy hx hy
  rw [sizeFrom_biased hn0] at e1 e2 e3
  refine ⟨s, e, ?_, ?_, ?_⟩
  · refine (ErrS_real hK e1 (exactFrom_biased hn0 x y) le_rfl).trans (le_of_eq ?_)
    push_cast
    ring
  · refine (ErrS_real hK e2 (exactFrom_biased hn0 x x) le_rfl).trans (le_of_eq ?_)
    push_cast
    ring
  · refine (ErrS_real hK e3 (exactFrom_biased hn0 y y) le_rfl).trans (le_of_eq ?_)
    push_cast
    ring

/-- C113, AVL method on `float32` samples, bias-corrected estimator. -/
theorem C113_accuracy_unbiased_partial (h : ∀ l, SumsTo32 l (sum32 l)) (h64 : IsFloat64 sqrt sum dot) (hn : 3 < n)
    {argsort : (Fin n → ℚ) → Equiv.Perm (Fin n)} (hsort : ∀ v : Fin n → ℚ, Monotone fun i => v (argsort v i))
    {x y : Fin n → ℚ} {X Y : ℚ} (fx : ∀ i, round32 (x i) = x i) (fy : ∀ i, round32 (y i) = y i)
    (hx : ∀ i, |x i| ≤ X) (hy : ∀ i, |y i| ≤ Y) (hK : 4 * n + 22 ≤ 2 ^ 24) :
    ∃ s, Arith.avlStatsSingle (binary32 sum32) (binary64 sqrt sum dot) true argsort x y = .ok s ∧
      |(s.cov : ℝ) - Spec.uDcovSqr (realDist fun i (_ : Fin 1) => x i) (realDist fun i (_ : Fin 1) => y i)|
        ≤ 2368 * (4 * n + 22) * (X * Y) / 2 ^ 24 ∧
      |(s.varX : ℝ) - Spec.uDcovSqr (realDist fun i (_ : Fin 1) => x i) (realDist fun i (_ : Fin 1) => x i)|
        ≤ 2368 * (4 * n + 22) * (X * X) / 2 ^ 24 ∧
      |(s.varY : ℝ) - Spec.uDcovSqr (realDist fun i (_ : Fin 1) => y i) (realDist fun i (_ : Fin 1) => y i)|
        ≤ 2368 * (4 * n + 22) * (Y * Y) / 2 ^ 24 := by
  have hn0 : 0 < n := by omega
  have hX : 0 ≤ X := (abs_nonneg _).trans (hx ⟨0, hn0⟩)
  have hY : 0 ≤ Y := (abs_nonneg _).trans (hy ⟨0, hn0⟩)
  have hs := sizeFrom_unbiased hn (show (0 : ℚ) ≤ 56 by norm_num)
  obtain ⟨s, e, e1, e2, e3⟩ := avlStatsSingle_err (bc := true) h h64 hn hsort fx fy hx hy
  refine ⟨s, e, ?_, ?_, ?_⟩
  · refine (ErrS_real hK e1 (exactFrom_unbiased hn x y) (mul_le_mul_of_nonneg_right hs (mul_nonneg hX hY))).trans
      (le_of_eq ?_)
    push_cast
    ring
  · refine (ErrS_real hK e2 (exactFrom_unbiased hn x x) (mul_le_mul_of_nonneg_right hs (mul_nonneg hX hX))).trans
      (le_of_eq ?_)
    push_cast
    ring
  · refine (ErrS_real hK e3 (exactFrom_unbiased hn y y) (mul_le_mul_of_nonneg_right hs (mul_nonneg hY hY))).trans
      (le_of_eq ?_)
    push_cast
    ring

theorem seqSum32_sumsTo (l : List ℚ) : SumsTo32 l (seqSum32 l) := by
  have key : ∀ (l l' : List ℚ) (s : ℚ), l' ≠ [] → SumsTo32 l' s →
      SumsTo32 (l' ++ l) (l.foldl (fun s b => round32 (s + b)) s) := by
    intro l
    induction l with
    | nil => intro l' s _ hs; simpa using hs
    | cons b l ih =>
      intro l' s hl' hs
      have := ih (l' ++ [b]) (round32 (s + b)) (by simp) (.add hl' (by simp) hs (.single b))
      simpa using this
  cases l with
  | nil => exact .nil
  | cons a l => exact key l [a] a (by simp) (.single a)

/-- The hypotheses hold for four fractions below 4, summed from left to right: the computed statistic is within 1/80. -/
example : ∃ s, Arith.avlStatsSingle (binary32 seqSum32) (binary64 sqrt64 seqSum64 seqDot64) false
      (fun v => Tuple.sort v) ![0, 1 / 2, 2, 4] ![1, 0, -1 / 8, 3] = .ok s ∧
    |(s.cov : ℝ) - Spec.dcovSqr (realDist fun i (_ : Fin 1) => (![0, 1 / 2, 2, 4] : Fin 4 → ℚ) i)
      (realDist fun i (_ : Fin 1) => (![1, 0, -1 / 8, 3] : Fin 4 → ℚ) i)| ≤ 1 / 80 := by
  obtain ⟨s, e, h, -⟩ := C113_accuracy_partial (X := 4) (Y := 4) seqSum32_sumsTo float64_seq.1 (by norm_num)
    (argsort := fun v => Tuple.sort v) (fun v => Tuple.monotone_sort v) (x := ![0, 1 / 2, 2, 4])
    (y := ![1, 0, -1 / 8, 3]) (by decide +kernel) (by decide +kernel) (by decide +kernel) (by decide +kernel) (by norm_num)
  refine ⟨s, e, h.trans ?_⟩
  norm_num

/-! ### Samples far from zero -/

/-- `_dcov_from_terms` for four `float32` observations, given the scalar product. -/
def fromTerms4Single (mp v aTotal bTotal : ℚ) : ℚ :=
  round64 (round64 (round32 (round32 (mp / 4) / 4) - round64 (2 * round64 (v / 16)))
    + round64 (round64 (round64 (aTotal / 4) * bTotal) / 64))

theorem fromTerms4Single_eq {mp v aTotal bTotal : ℚ}
    {a b : Fin 4 → ℚ} (h : (binary64 sqrt sum dot).vdot (fun i => (binary64 sqrt sum dot).idiv (a i) (4 : ℕ)) b = v) :
    Arith.fromTermsSingle (binary32 sum32) (binary64 sqrt sum dot) false mp a aTotal b bTotal
      = fromTerms4Single mp v aTotal bTotal := by
  unfold Arith.fromTermsSingle
  dsimp only
  rw [h]
  have s4 : round32 (((4 : ℕ) : ℤ) : ℚ) = 4 := by decide +kernel
  have e4 : round64 (((4 : ℕ) : ℤ) : ℚ) = 4 := by decide +kernel
  have e16 : round64 (((((4 : ℕ) : ℤ) ^ 2 : ℤ)) : ℚ) = 16 := by decide +kernel
  have e64 : round64 (((((4 : ℕ) : ℤ) ^ 3 : ℤ)) : ℚ) = 64 := by decide +kernel
  have e2 : round64 ((2 : ℤ) : ℚ) = 2 := by decide +kernel
  show round64 (round64 (round32 (round32 (mp / round32 (((4 : ℕ) : ℤ) : ℚ)) / round32 (((4 : ℕ) : ℤ) : ℚ))
      - round64 (round64 ((2 : ℤ) : ℚ) * round64 (v / round64 (((((4 : ℕ) : ℤ) ^ 2 : ℤ)) : ℚ))))
    + round64 (round64 (round64 (aTotal / round64 (((4 : ℕ) : ℤ) : ℚ)) * bTotal)
      / round64 (((((4 : ℕ) : ℤ) ^ 3 : ℤ)) : ℚ))) = _
  rw [s4, e4, e16, e64, e2]
  rfl

theorem avlTermsSingle_sorted {argsort : (Fin 4 → ℚ) → Equiv.Perm (Fin 4)}
    (hsort : KeepsSorted argsort) {x y : Fin 4 → ℚ} (hx : Monotone x) (hy : Monotone y) {t : CoreTerms ℚ 4}
    (ht : termsAre (do
      let t ← (binary32 seqSum32).avlTermsWith 2 false (fun _ => 1) x y
      pure { meanProd := t.meanProd
             aAxis := Arith.axisSingle (binary32 seqSum32) (binary64 id seqSum64 (fun _ => 0)) 1 x
             aTotal := Arith.totalSingle (binary32 seqSum32) (binary64 id seqSum64 (fun _ => 0)) 1 x
             bAxis := Arith.axisSingle (binary32 seqSum32) (binary64 id seqSum64 (fun _ => 0)) 1 y
             bTotal := Arith.totalSingle (binary32 seqSum32) (binary64 id seqSum64 (fun _ => 0)) 1 y }) t = true) :
    Arith.avlTermsSingle (binary32 seqSum32) (binary64 sqrt seqSum64 dot) argsort x y = .ok t := by
  have hrel : (binary32 seqSum32).Rel (binary32 seqSum32) (fun a b => a = b) := by
    refine ⟨fun _ => rfl, ?_, ?_, ?_, ?_⟩
    · rintro a b _ _ rfl rfl; rfl
    · rintro a b _ _ rfl rfl; rfl
    · rintro a b _ _ rfl rfl; rfl
    · intro l l' hl
      rw [List.forall₂_eq_eq_eq] at hl
      subst hl
      rfl
  have ht := termsAre_iff ht
  have h := avlTermsWith_rel hrel 2 false (argsort := argsort) (argsort' := fun _ => 1) (x := x) (y := y) (x' := x)
    (y' := y) (fun _ => rfl) (fun _ => rfl) (hsort x hx) (hsort y hy) (by rw [hsort x hx]; exact hsort y hy)
  unfold Arith.avlTermsSingle Arith.avlTerms
  rw [show Nat.clog 2 4 = 2 from Nat.clog_pow 2 2 (by norm_num), hsort x hx, hsort y hy]
  cases e : (binary32 seqSum32).avlTermsWith 2 false (fun _ => 1) x y with
  | error er => rw [e] at ht; cases ht
  | ok u =>
    rw [e] at h ht
    obtain ⟨s, e', hs⟩ := h.of_ok
    rw [e', ← ht]
    simp only [Except.ok_bind', Except.pure_eq, hs.meanProd]
    rfl

theorem gap_stats_single (h : IsFloat64 sqrt seqSum64 dot) {argsort : (Fin 4 → ℚ) → Equiv.Perm (Fin 4)}
    (hsort : KeepsSorted argsort) {x : Fin 4 → ℚ} (hx : Monotone x) {mp c : ℚ}
    (ht : termsAre (do
      let t ← (binary32 seqSum32).avlTermsWith 2 false (fun _ => 1) x x
      pure { meanProd := t.meanProd
             aAxis := Arith.axisSingle (binary32 seqSum32) (binary64 id seqSum64 (fun _ => 0)) 1 x
             aTotal := Arith.totalSingle (binary32 seqSum32) (binary64 id seqSum64 (fun _ => 0)) 1 x
             bAxis := Arith.axisSingle (binary32 seqSum32) (binary64 id seqSum64 (fun _ => 0)) 1 x
             bTotal := Arith.totalSingle (binary32 seqSum32) (binary64 id seqSum64 (fun _ => 0)) 1 x })
      { gapTerms with meanProd := mp } = true)
    (hv : (binary32 seqSum32).varTerm x = 70) (hc : fromTerms4Single mp 45 26 26 = c) :
    Arith.avlStatsSingle (binary32 seqSum32) (binary64 sqrt seqSum64 dot) false argsort x x
      = .ok { cov := c, corr := round64 (c / (89 / 64)), varX := 89 / 64, varY := 89 / 64 } := by
  have f3 : fromTerms4Single 70 45 26 26 = 89 / 64 := by decide +kernel
  have hb : gapTerms.bAxis = gapTerms.aAxis := rfl
  have ha : gapTerms.aTotal = 26 := rfl
  have ha' : gapTerms.bTotal = 26 := rfl
  unfold Arith.avlStatsSingle
  rw [avlTermsSingle_sorted hsort hx hx ht]
  simp only [Except.ok_bind', Except.pure_eq]
  rw [hv, hb, ha, ha', fromTerms4Single_eq (gap_dot h), fromTerms4Single_eq (gap_dot h), hc, f3,
    denominator_self h (by decide +kernel)]
  rw [if_neg (by rw [eqZero_iff]; norm_num)]
  rw [abs_of_pos (by norm_num)]
  rfl

/-- The four years of the counterexample. -/
def years : Fin 4 → ℚ := ![2020, 2021, 2022, 2024]

/-- The four pressures, in pascals, of the counterexample. -/
def pressures : Fin 4 → ℚ := ![101325, 101326, 101327, 101329]

/-- C113 fails for the AVL method: the years 2020, 2021, 2022, 2024 are exact in `float32`, their squared distance variance
is 89/64 and computed exactly, but their squared distance covariance with themselves is computed as 81/64, so that the
squared distance correlation of the sample with itself is less than 0.92. -/
theorem C113_years_fail (h : IsFloat64 sqrt seqSum64 dot) {argsort : (Fin 4 → ℚ) → Equiv.Perm (Fin 4)}
    (hsort : KeepsSorted argsort) :
    ∃ s, Arith.avlStatsSingle (binary32 seqSum32) (binary64 sqrt seqSum64 dot) false argsort years years = .ok s ∧
      (∀ i, round32 (years i) = years i) ∧
      Spec.dcovSqr (realDist fun i (_ : Fin 1) => years i) (realDist fun i (_ : Fin 1) => years i) = 89 / 64 ∧
      s.cov = 81 / 64 ∧ s.varX = 89 / 64 ∧ s.varY = 89 / 64 ∧ s.corr < 92 / 100 := by
  refine ⟨_, gap_stats_single (x := years) (mp := 68) (c := 81 / 64) h hsort (monotone4 (by decide +kernel))
    (by decide +kernel) (by decide +kernel) (by decide +kernel), by decide +kernel, ?_, rfl, rfl, rfl, by decide +kernel⟩
  unfold realDist
  rw [← exactFrom_biased (by norm_num)]
  have : exactFrom 4 false (absTerms years years).meanProd (absTerms years years).aAxis (absTerms years years).aTotal
      (absTerms years years).bAxis (absTerms years years).bTotal = 89 / 64 := by decide +kernel
  rw [this]
  norm_num

/-- C113 fails for the AVL method: for pressures in pascals, which differ from the years by a constant and are exact in
`float32`, the squared distance covariance of the sample with itself is less than -258 instead of 89/64, and the squared
distance correlation less than -186 instead of 1, so that `distance_correlation` returns 0. -/
theorem C113_pressures_fail (h : IsFloat64 sqrt seqSum64 dot) {argsort : (Fin 4 → ℚ) → Equiv.Perm (Fin 4)}
    (hsort : KeepsSorted argsort) :
    ∃ s, Arith.avlStatsSingle (binary32 seqSum32) (binary64 sqrt seqSum64 dot) false argsort pressures pressures = .ok s ∧
      (∀ i, round32 (pressures i) = pressures i) ∧
      Spec.dcovSqr (realDist fun i (_ : Fin 1) => pressures i) (realDist fun i (_ : Fin 1) => pressures i) = 89 / 64 ∧
      s.cov < -258 ∧ s.varX = 89 / 64 ∧ s.varY = 89 / 64 ∧ s.corr < -186 ∧
      (binary64 sqrt seqSum64 dot).sqrtClip s.corr = 0 := by
  have hcorr : round64 ((-16575 / 64 : ℚ) / (89 / 64)) < 0 := by decide +kernel
  refine ⟨_, gap_stats_single (x := pressures) (mp := -4096) (c := -16575 / 64) h hsort (monotone4 (by decide +kernel))
    (by decide +kernel) (by decide +kernel) (by decide +kernel), by decide +kernel, ?_, by norm_num, rfl, rfl,
    by decide +kernel, ?_⟩
  · unfold realDist
    rw [← exactFrom_biased (by norm_num)]
    have : exactFrom 4 false (absTerms pressures pressures).meanProd (absTerms pressures pressures).aAxis
        (absTerms pressures pressures).aTotal (absTerms pressures pressures).bAxis (absTerms pressures pressures).bTotal
        = 89 / 64 := by decide +kernel
    rw [this]
    norm_num
  · show sqrt (if decide (round64 ((-16575 / 64 : ℚ) / (89 / 64)) < round64 ((0 : ℤ) : ℚ)) = true then
      round64 ((0 : ℤ) : ℚ) else _) = 0
    rw [Int.cast_zero, round64_zero, if_pos (by simpa using hcorr)]
    have e := h.sqrt 0 le_rfl
    rw [show (0 : ℚ) = round64 (0 * 0) by rw [mul_zero, round64_zero]] at e
    have := e.round_square round64_zero
    simpa [round64_zero] using this

example : ∃ (argsort : (Fin 4 → ℚ) → Equiv.Perm (Fin 4)), KeepsSorted argsort ∧
    IsFloat64 sqrt64 seqSum64 seqDot64 :=
  ⟨fun v => Tuple.sort v, fun _ hv => (Tuple.sort_eq_refl_iff_monotone).2 hv, float64_seq.1⟩

end Dcor.Props

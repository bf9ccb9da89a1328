/-
C113: `float32` samples of small integers, and the row-wise functions on `float32` samples.
-/
import Verif.Proofs.IntSingle
import Verif.Props.Float32
import Verif.Props.FloatRowwise
import Verif.Props.Rounding

namespace Dcor.Props

open Dcor

variable {sqrt : ℚ → ℚ} {sum sum32 : List ℚ → ℚ} {dot : List (ℚ × ℚ) → ℚ} {n : ℕ}

/-! ### Small integers -/

/-- C113, AVL method on `float32` samples of integers that are small enough: none of the sums is rounded, in any order of
summation. -/
theorem C113_integer_terms (h : ∀ l, SumsTo32 l (sum32 l)) (h64 : IsFloat64 sqrt sum dot) (hn : 3 < n)
    {argsort : (Fin n → ℚ) → Equiv.Perm (Fin n)} (hsort : ∀ v : Fin n → ℚ, Monotone fun i => v (argsort v i))
    {x y : Fin n → ℤ} {X Y : ℤ} (hX : 1 ≤ X) (hY : 1 ≤ Y) (hx : ∀ i, |x i| ≤ X) (hy : ∀ i, |y i| ≤ Y)
    (hM : 4 * ((n : ℤ) * (n * (X * Y))) ≤ 2 ^ 24) :
    Arith.avlTermsSingle (binary32 sum32) (binary64 sqrt sum dot) argsort (fun i => (x i : ℚ)) (fun i => (y i : ℚ))
      = .ok { meanProd := ∑ i, ∑ j, |(x i : ℚ) - x j| * |(y i : ℚ) - y j|
              aAxis := fun i => ∑ j, |(x i : ℚ) - x j|
              aTotal := ∑ i, ∑ j, |(x i : ℚ) - x j|
              bAxis := fun i => ∑ j, |(y i : ℚ) - y j|
              bTotal := ∑ i, ∑ j, |(y i : ℚ) - y j| } := by
  have hn' : (4 : ℤ) ≤ n := by exact_mod_cast hn
  have hXY : X ≤ X * Y := le_mul_of_one_le_right (by omega) hY
  have hYX : Y ≤ X * Y := le_mul_of_one_le_left (by omega) hX
  have hNX : (n : ℤ) * X ≤ n * (X * Y) := mul_le_mul_of_nonneg_left hXY (by omega)
  have hNY : (n : ℤ) * Y ≤ n * (X * Y) := mul_le_mul_of_nonneg_left hYX (by omega)
  have hNNX : (n : ℤ) * (n * X) ≤ n * (n * (X * Y)) := mul_le_mul_of_nonneg_left hNX (by omega)
  have hNNY : (n : ℤ) * (n * Y) ≤ n * (n * (X * Y)) := mul_le_mul_of_nonneg_left hNY (by omega)
  have hnX : (n : ℤ) * X ≤ n * (n * X) := le_mul_of_one_le_left (by positivity) (by omega)
  have hnY : (n : ℤ) * Y ≤ n * (n * Y) := le_mul_of_one_le_left (by positivity) (by omega)
  have hXn : X ≤ n * X := le_mul_of_one_le_left (by omega) (by omega)
  have hYn : Y ≤ n * Y := le_mul_of_one_le_left (by omega) (by omega)
  have ofX : (fun i => (binary32x sum32).ofInt (x i)) = fun i => (x i : ℚ) :=
    funext fun i => round32_int _ ((hx i).trans (by omega))
  have ofY : (fun i => (binary32x sum32).ofInt (y i)) = fun i => (y i : ℚ) :=
    funext fun i => round32_int _ ((hy i).trans (by omega))
  obtain ⟨t, e, ht⟩ := (binary32_intExact h).avlTermsWith (Nat.le_pow_clog (by norm_num) n) false argsort x y hn
    hX hY hx hy hM
  have ofYX : (fun i => (binary32x sum32).ofInt (y (argsort (fun i => (x i : ℚ)) i)))
      = fun i => (y (argsort (fun i => (x i : ℚ)) i) : ℚ) := funext fun i => congrFun ofY _
  rw [ofX, ofY] at e ht
  rw [ofYX] at ht
  obtain ⟨m1, m2, m3⟩ := sorted_int argsort hsort x y
  have hperm := permTerms_eq _ _ _ x y m1 m2 m3
  have hmp : t.meanProd = ∑ i, ∑ j, |(x i : ℚ) - x j| * |(y i : ℚ) - y j| := by
    have hm := ht.meanProd
    rw [hperm] at hm
    have b : ∀ i j, |x i - x j| * |y i - y j| ≤ 4 * (X * Y) := fun i j => by
      have h1 : |x i - x j| ≤ 2 * X := (abs_sub _ _).trans (by have := hx i; have := hx j; omega)
      have h2 : |y i - y j| ≤ 2 * Y := (abs_sub _ _).trans (by have := hy i; have := hy j; omega)
      calc _ ≤ 2 * X * (2 * Y) := mul_le_mul h1 h2 (abs_nonneg _) (by omega)
        _ = _ := by ring
    have hb : ∑ i, ∑ j, |x i - x j| * |y i - y j| ≤ 2 ^ 24 := by
      calc _ ≤ ∑ i : Fin n, ∑ j : Fin n, 4 * (X * Y) := Finset.sum_le_sum fun i _ => Finset.sum_le_sum fun j _ => b i j
        _ = 4 * ((n : ℤ) * (n * (X * Y))) := by simp; ring
        _ ≤ _ := hM
    have h0 : 0 ≤ ∑ i, ∑ j, |x i - x j| * |y i - y j| := by positivity
    rw [hm]
    refine (round32_int _ ((abs_of_nonneg h0).trans_le hb)).trans ?_
    push_cast
    rfl
  have hrel := avlTermsWith_rel (binary32_rel (sum32 := sum32)) (Nat.clog 2 n) false (argsort := argsort)
    (argsort' := argsort) (x := fun i => (x i : ℚ)) (y := fun i => (y i : ℚ)) (x' := fun i => (x i : ℚ))
    (y' := fun i => (y i : ℚ)) (fun _ => rfl) (fun _ => rfl) rfl rfl rfl
  have ax : ∀ i, Arith.axisSingle (binary32 sum32) (binary64 sqrt sum dot) (argsort fun i => (x i : ℚ))
      (fun i => (x i : ℚ)) i = ∑ j, |(x i : ℚ) - x j| := fun i => by
    rw [axisSingle_int h _ x hX hx (by omega) i]
    have := congrFun (congrArg CoreTerms.aAxis hperm) i
    refine (congrArg (Int.cast (R := ℚ)) this).trans ?_
    push_cast
    rfl
  have ay : ∀ i, Arith.axisSingle (binary32 sum32) (binary64 sqrt sum dot) (argsort fun i => (y i : ℚ))
      (fun i => (y i : ℚ)) i = ∑ j, |(y i : ℚ) - y j| := fun i => by
    rw [axisSingle_int h _ y hY hy (by omega) i]
    have := congrFun (congrArg CoreTerms.bAxis hperm) i
    refine (congrArg (Int.cast (R := ℚ)) this).trans ?_
    push_cast
    rfl
  have tx : Arith.totalSingle (binary32 sum32) (binary64 sqrt sum dot) (argsort fun i => (x i : ℚ))
      (fun i => (x i : ℚ)) = ∑ i, ∑ j, |(x i : ℚ) - x j| := by
    rw [totalSingle_int h h64 _ x (by omega) hX hx (by omega)]
    refine (congrArg (Int.cast (R := ℚ)) (congrArg CoreTerms.aTotal hperm)).trans ?_
    push_cast
    rfl
  have ty : Arith.totalSingle (binary32 sum32) (binary64 sqrt sum dot) (argsort fun i => (y i : ℚ))
      (fun i => (y i : ℚ)) = ∑ i, ∑ j, |(y i : ℚ) - y j| := by
    rw [totalSingle_int h h64 _ y (by omega) hY hy (by omega)]
    refine (congrArg (Int.cast (R := ℚ)) (congrArg CoreTerms.bTotal hperm)).trans ?_
    push_cast
    rfl
  rw [e] at hrel
  unfold Arith.avlTermsSingle Arith.avlTerms
  cases e' : (binary32 sum32).avlTermsWith (Nat.clog 2 n) false argsort (fun i => (x i : ℚ)) (fun i => (y i : ℚ)) with
  | error er => rw [e'] at hrel; cases hrel
  | ok u =>
    rw [e'] at hrel
    have hu : u.meanProd = t.meanProd := by
      have hrel : CoreRel (fun a b : ℚ => a = b) u t := hrel
      exact hrel.meanProd
    simp only [Except.ok_bind', Except.pure_eq]
    rw [hu, hmp, funext ax, funext ay, tx, ty]

/-- Sizes of the sums of the definition. -/
theorem absTerms_size {x y : Fin n → ℚ} {X Y : ℚ} (hX : ∀ i j, |x i - x j| ≤ X) (hY : ∀ i j, |y i - y j| ≤ Y) :
    |(absTerms x y).meanProd| ≤ n ^ 2 * (X * Y) ∧ (∀ i, |(absTerms x y).aAxis i| ≤ n * X) ∧
      |(absTerms x y).aTotal| ≤ n ^ 2 * X := by
  have row : ∀ i, ∑ j, |x i - x j| ≤ n * X := fun i => by
    calc _ ≤ ∑ _j : Fin n, X := Finset.sum_le_sum fun j _ => hX i j
      _ = _ := by simp
  refine ⟨?_, fun i => ?_, ?_⟩
  · show |(∑ i, ∑ j, |x i - x j| * |y i - y j|)| ≤ _
    rw [abs_of_nonneg (by positivity)]
    calc _ ≤ ∑ _i : Fin n, ∑ _j : Fin n, X * Y := Finset.sum_le_sum fun i _ => Finset.sum_le_sum fun j _ =>
            mul_le_mul (hX i j) (hY i j) (abs_nonneg _) ((abs_nonneg _).trans (hX i j))
      _ = _ := by simp; ring
  · show |(∑ j, |x i - x j|)| ≤ _
    rw [abs_of_nonneg (by positivity)]
    exact row i
  · show |(∑ i, ∑ j, |x i - x j|)| ≤ _
    rw [abs_of_nonneg (by positivity)]
    calc _ ≤ ∑ _i : Fin n, n * X := Finset.sum_le_sum fun i _ => row i
      _ = _ := by simp; ring

theorem integer_cov_err (h : ∀ l, SumsTo32 l (sum32 l)) (h64 : IsFloat64 sqrt sum dot) (hn : 3 < n) (bc : Bool)
    {argsort : (Fin n → ℚ) → Equiv.Perm (Fin n)} (hsort : ∀ v : Fin n → ℚ, Monotone fun i => v (argsort v i))
    {x y : Fin n → ℤ} {X Y : ℤ} (hX : 1 ≤ X) (hY : 1 ≤ Y) (hx : ∀ i, |x i| ≤ X) (hy : ∀ i, |y i| ≤ Y)
    (hM : 4 * ((n : ℤ) * (n * (X * Y))) ≤ 2 ^ 24) {U V : ℚ} (hU : ∀ i j, |(x i : ℚ) - x j| ≤ U)
    (hV : ∀ i j, |(y i : ℚ) - y j| ≤ V) :
    ∃ s, Arith.avlStatsSingle (binary32 sum32) (binary64 sqrt sum dot) bc argsort (fun i => (x i : ℚ))
        (fun i => (y i : ℚ)) = .ok s ∧
      ErrS (4 * n + 22) (sizeFrom 36 n bc * (U / 6 * (V / 6)))
        (exactFrom n bc (absTerms (fun i => (x i : ℚ)) fun i => (y i : ℚ)).meanProd
          (absTerms (fun i => (x i : ℚ)) fun i => (y i : ℚ)).aAxis (absTerms (fun i => (x i : ℚ)) fun i => (y i : ℚ)).aTotal
          (absTerms (fun i => (x i : ℚ)) fun i => (y i : ℚ)).bAxis
          (absTerms (fun i => (x i : ℚ)) fun i => (y i : ℚ)).bTotal) s.cov := by
  have hbc : if bc then 3 < n else 0 < n := by split_ifs <;> omega
  obtain ⟨b1, b2, b3⟩ := absTerms_size hU hV
  obtain ⟨-, b4, b5⟩ := absTerms_size hV hU
  have run := C113_integer_terms h h64 hn hsort hX hY hx hy hM
  have e : Arith.avlStatsSingle (binary32 sum32) (binary64 sqrt sum dot) bc argsort (fun i => (x i : ℚ))
        (fun i => (y i : ℚ)) = Arith.avlStatsSingle (binary32 sum32) (binary64 sqrt sum dot) bc argsort
        (fun i => (x i : ℚ)) (fun i => (y i : ℚ)) := rfl
  conv_rhs at e => unfold Arith.avlStatsSingle
  rw [run] at e
  refine ⟨_, e, fromTermsSingle_err h64 hbc (ErrS.refl (b1.trans (le_of_eq (by ring))))
    (fun i => ErrS.refl ((b2 i).trans (le_of_eq (by ring)))) (ErrS.refl (b3.trans (le_of_eq (by ring))))
    (fun i => ErrS.refl ((b4 i).trans (le_of_eq (by ring)))) (ErrS.refl (b5.trans (le_of_eq (by ring))))⟩

/-- C113, AVL method on `float32` samples of integers that are small enough: the error of the squared covariance is bounded
by the largest *distances* `U` and `V`, times `(32 * n + 176) * 2 ** -24`. -/
theorem C113_integer_accuracy (h : ∀ l, SumsTo32 l (sum32 l)) (h64 : IsFloat64 sqrt sum dot) (hn : 3 < n)
    {argsort : (Fin n → ℚ) → Equiv.Perm (Fin n)} (hsort : ∀ v : Fin n → ℚ, Monotone fun i => v (argsort v i))
    {x y : Fin n → ℤ} {X Y : ℤ} (hX : 1 ≤ X) (hY : 1 ≤ Y) (hx : ∀ i, |x i| ≤ X) (hy : ∀ i, |y i| ≤ Y)
    (hM : 4 * ((n : ℤ) * (n * (X * Y))) ≤ 2 ^ 24) {U V : ℚ} (hU : ∀ i j, |(x i : ℚ) - x j| ≤ U)
    (hV : ∀ i j, |(y i : ℚ) - y j| ≤ V) :
    ∃ s, Arith.avlStatsSingle (binary32 sum32) (binary64 sqrt sum dot) false argsort (fun i => (x i : ℚ))
        (fun i => (y i : ℚ)) = .ok s ∧
      |(s.cov : ℝ) - Spec.dcovSqr (realDist fun i (_ : Fin 1) => (x i : ℚ)) (realDist fun i (_ : Fin 1) => (y i : ℚ))|
        ≤ (32 * n + 176) * (U * V) / 2 ^ 24 := by
  have hn0 : 0 < n := by omega
  have hK : 4 * n + 22 ≤ 2 ^ 24 := by
    have h1 : (1 : ℤ) ≤ X * Y := by nlinarith
    have h2 : (n : ℤ) ≤ n * (X * Y) := le_mul_of_one_le_right (by omega) h1
    have h3 : (n : ℤ) * n ≤ n * (n * (X * Y)) := mul_le_mul_of_nonneg_left h2 (by omega)
    have h4 : (4 : ℤ) ≤ n := by exact_mod_cast hn
    have : 4 * (n : ℤ) + 22 ≤ 2 ^ 24 := by
      by_contra hc
      nlinarith
    exact_mod_cast this
  obtain ⟨s, e, e1⟩ := integer_cov_err h h64 hn false hsort hX hY hx hy hM hU hV
  rw [sizeFrom_biased hn0] at e1
  refine ⟨s, e, (ErrS_real hK e1 (exactFrom_biased hn0 _ _) le_rfl).trans (le_of_eq ?_)⟩
  push_cast
  ring

/-- C113, AVL method on `float32` samples of integers that are small enough, bias-corrected estimator. -/
theorem C113_integer_accuracy_unbiased (h : ∀ l, SumsTo32 l (sum32 l)) (h64 : IsFloat64 sqrt sum dot) (hn : 3 < n)
    {argsort : (Fin n → ℚ) → Equiv.Perm (Fin n)} (hsort : ∀ v : Fin n → ℚ, Monotone fun i => v (argsort v i))
    {x y : Fin n → ℤ} {X Y : ℤ} (hX : 1 ≤ X) (hY : 1 ≤ Y) (hx : ∀ i, |x i| ≤ X) (hy : ∀ i, |y i| ≤ Y)
    (hM : 4 * ((n : ℤ) * (n * (X * Y))) ≤ 2 ^ 24) {U V : ℚ} (hU : ∀ i j, |(x i : ℚ) - x j| ≤ U)
    (hV : ∀ i j, |(y i : ℚ) - y j| ≤ V) :
    ∃ s, Arith.avlStatsSingle (binary32 sum32) (binary64 sqrt sum dot) true argsort (fun i => (x i : ℚ))
        (fun i => (y i : ℚ)) = .ok s ∧
      |(s.cov : ℝ) - Spec.uDcovSqr (realDist fun i (_ : Fin 1) => (x i : ℚ)) (realDist fun i (_ : Fin 1) => (y i : ℚ))|
        ≤ (248 * n + 1364) * (U * V) / 2 ^ 24 := by
  have hn0 : 0 < n := by omega
  have hK : 4 * n + 22 ≤ 2 ^ 24 := by
    have h1 : (1 : ℤ) ≤ X * Y := by nlinarith
    have h2 : (n : ℤ) ≤ n * (X * Y) := le_mul_of_one_le_right (by omega) h1
    have h3 : (n : ℤ) * n ≤ n * (n * (X * Y)) := mul_le_mul_of_nonneg_left h2 (by omega)
    have h4 : (4 : ℤ) ≤ n := by exact_mod_cast hn
    have : 4 * (n : ℤ) + 22 ≤ 2 ^ 24 := by
      by_contra hc
      nlinarith
    exact_mod_cast this
  have hU0 : 0 ≤ U := (abs_nonneg _).trans (hU ⟨0, hn0⟩ ⟨0, hn0⟩)
  have hV0 : 0 ≤ V := (abs_nonneg _).trans (hV ⟨0, hn0⟩ ⟨0, hn0⟩)
  have hs := sizeFrom_unbiased hn (show (0 : ℚ) ≤ 36 by norm_num)
  obtain ⟨s, e, e1⟩ := integer_cov_err h h64 hn true hsort hX hY hx hy hM hU hV
  have hm : sizeFrom 36 n true * (U / 6 * (V / 6)) ≤ 31 * (U * V) := by
    have := mul_le_mul_of_nonneg_right hs (show 0 ≤ U / 6 * (V / 6) by positivity)
    nlinarith [mul_nonneg hU0 hV0]
  refine ⟨s, e, (ErrS_real hK e1 (exactFrom_unbiased hn _ _) hm).trans (le_of_eq ?_)⟩
  push_cast
  ring

/-- The hypotheses hold for four whole numbers up to 400: the computed statistic is within 1/1000. -/
example : ∃ s, Arith.avlStatsSingle (binary32 seqSum32) (binary64 sqrt64 seqSum64 seqDot64) false
      (fun v => Tuple.sort v) (fun i => ((![390, 400, 395, 392] : Fin 4 → ℤ) i : ℚ))
      (fun i => ((![400, 395, 398, 397] : Fin 4 → ℤ) i : ℚ)) = .ok s ∧
    |(s.cov : ℝ) - Spec.dcovSqr (realDist fun i (_ : Fin 1) => ((![390, 400, 395, 392] : Fin 4 → ℤ) i : ℚ))
      (realDist fun i (_ : Fin 1) => ((![400, 395, 398, 397] : Fin 4 → ℤ) i : ℚ))| ≤ 1 / 1000 := by
  obtain ⟨s, e, h⟩ := C113_integer_accuracy (X := 400) (Y := 400) (U := 10) (V := 5) seqSum32_sumsTo float64_seq.1
    (by norm_num) (argsort := fun v => Tuple.sort v) (fun v => Tuple.monotone_sort v) (x := ![390, 400, 395, 392])
    (y := ![400, 395, 398, 397]) (by norm_num) (by norm_num) (by decide +kernel) (by decide +kernel) (by norm_num)
    (by decide +kernel) (by decide +kernel)
  refine ⟨s, e, h.trans ?_⟩
  norm_num

/-! ### Row-wise functions -/

theorem round64_of_round32 {q : ℚ} (h : round32 q = q) : round64 q = q := by
  obtain ⟨m, k, hm, e⟩ := round32_form q
  rw [h] at e
  rw [e]
  exact round64_fixed (hm.trans (by norm_num))

/-- C113, row-wise: an entry of the row-wise covariance of `float32` samples is within one rounding to `float32` of a value
within the error bound of `float64`. -/
theorem C113_rowwise_accuracy (h64 : IsFloat64 sqrt sum dot) (hn : 3 < n)
    {argsort : (Fin n → ℚ) → Equiv.Perm (Fin n)} (hsort : ∀ v : Fin n → ℚ, Monotone fun i => v (argsort v i))
    {x y : Fin n → ℚ} {X Y : ℚ} (fx : ∀ i, round32 (x i) = x i) (fy : ∀ i, round32 (y i) = y i)
    (hx : ∀ i, |x i| ≤ X) (hy : ∀ i, |y i| ≤ Y) (hK : 4 * n + 22 ≤ 2 ^ 53) :
    ∃ r, Arith.rowCovarianceSingle (binary64 sqrt sum dot) round32 false argsort x y = .ok r ∧
      |(r : ℝ) - Spec.dcovSqr (realDist fun i (_ : Fin 1) => x i) (realDist fun i (_ : Fin 1) => y i)|
        ≤ 329 * (4 * n + 22) * (X * Y) / 2 ^ 53
          + Spec.dcovSqr (realDist fun i (_ : Fin 1) => x i) (realDist fun i (_ : Fin 1) => y i) / 2 ^ 24 := by
  obtain ⟨s, e, e1, -⟩ := C73_avl_accuracy h64 hn true hsort (fun i => round64_of_round32 (fx i))
    (fun i => round64_of_round32 (fy i)) hx hy hK
  have hn0 : 0 < n := by omega
  have hX : 0 ≤ X := (abs_nonneg _).trans (hx ⟨0, hn0⟩)
  have hY : 0 ≤ Y := (abs_nonneg _).trans (hy ⟨0, hn0⟩)
  refine ⟨round32 s.cov, by rw [Arith.rowCovarianceSingle, rowCovariance_of_stats _ e]; rfl, ?_⟩
  have hr : |((round32 s.cov : ℚ) : ℝ) - s.cov| ≤ |(s.cov : ℝ)| / 2 ^ 24 := by
    have := round32_err s.cov
    exact_mod_cast this
  have h0 : 0 ≤ Spec.dcovSqr (realDist fun i (_ : Fin 1) => x i) (realDist fun i (_ : Fin 1) => y i) :=
    Spec.dcovSqr_nonneg _ _ one_pos one_le_two
  generalize Spec.dcovSqr (realDist fun i (_ : Fin 1) => x i) (realDist fun i (_ : Fin 1) => y i) = c at *
  have hXY : (0 : ℝ) ≤ 4 * n + 22 := by positivity
  have hXY' : (0 : ℝ) ≤ (4 * n + 22) * (X * Y) := by
    have : (0 : ℝ) ≤ (X : ℝ) * Y := by exact_mod_cast mul_nonneg hX hY
    positivity
  have h1 := abs_le.1 e1
  have h2 := abs_le.1 hr
  have h3 : |(s.cov : ℝ)| ≤ c + 328 * (4 * n + 22) * (X * Y) / 2 ^ 53 := abs_le.2 ⟨by linarith, by linarith⟩
  have h4 : |(s.cov : ℝ)| / 2 ^ 24 ≤ (c + 328 * (4 * n + 22) * (X * Y) / 2 ^ 53) / 2 ^ 24 := by gcongr
  have e328 : (328 : ℝ) * (4 * n + 22) * (X * Y) = 328 * ((4 * n + 22) * (X * Y)) := by ring
  have e329 : (329 : ℝ) * (4 * n + 22) * (X * Y) = 329 * ((4 * n + 22) * (X * Y)) := by ring
  rw [e328] at e1 h3 h4 h1
  rw [e329]
  generalize ((4 : ℝ) * n + 22) * (X * Y) = w at *
  have h5 := abs_sub_le ((round32 s.cov : ℚ) : ℝ) s.cov c
  have h6 : (c + 328 * w / 2 ^ 53) / 2 ^ 24 = c / 2 ^ 24 + 328 * w / 2 ^ 53 / 2 ^ 24 := by ring
  have h7 : 328 * w / 2 ^ 53 / 2 ^ 24 ≤ w / 2 ^ 53 := by
    have : 0 ≤ w / 2 ^ 53 := by positivity
    have e : 328 * w / 2 ^ 53 / 2 ^ 24 = 328 / 2 ^ 24 * (w / 2 ^ 53) := by ring
    rw [e]
    calc _ ≤ 1 * (w / 2 ^ 53) := mul_le_mul_of_nonneg_right (by norm_num) this
      _ = _ := one_mul _
  have h8 : 329 * w / 2 ^ 53 = 328 * w / 2 ^ 53 + w / 2 ^ 53 := by ring
  linarith

/-- The hypotheses hold for the years. -/
example : ∃ r, Arith.rowCovarianceSingle (binary64 sqrt64 seqSum64 seqDot64) round32 false (fun v => Tuple.sort v) years years
      = .ok r :=
  (C113_rowwise_accuracy (X := 2024) (Y := 2024) float64_seq.1 (by norm_num) (argsort := fun v => Tuple.sort v)
    (fun v => Tuple.monotone_sort v) (x := years) (y := years) (by decide +kernel) (by decide +kernel) (by decide +kernel)
    (by decide +kernel) (by norm_num)).imp fun _ h => h.1

/-- C113: for the years of `C113_years_fail` the row-wise function gives the exact value 89/64, and the function itself
81/64. -/
theorem C113_rowwise_differs (h : IsFloat64 sqrt seqSum64 dot) {argsort : (Fin 4 → ℚ) → Equiv.Perm (Fin 4)}
    (hsort : KeepsSorted argsort) :
    Arith.rowCovarianceSingle (binary64 sqrt seqSum64 dot) round32 false argsort years years = .ok (89 / 64) ∧
      ∃ s, Arith.avlStatsSingle (binary32 seqSum32) (binary64 sqrt seqSum64 dot) false argsort years years = .ok s ∧
        s.cov = 81 / 64 := by
  refine ⟨?_, ?_⟩
  · have m : Monotone years := monotone4 (by decide +kernel)
    have e := Dcor.avlStats_sorted (sqrt := sqrt) (dot := dot) (t := { gapTerms with meanProd := 70 }) hsort false true m m
      (by decide +kernel)
    have hv : (binary64 sqrt seqSum64 dot).varTerm years = 70 := by
      show (binary64 id seqSum64 fun _ => 0).varTerm years = 70
      decide +kernel
    rw [hv, gap_stats h 70 (89 / 64) (by decide +kernel)] at e
    rw [Arith.rowCovarianceSingle, rowCovariance_of_stats _ e]
    show Except.ok (round32 (89 / 64)) = _
    congr 1
    decide +kernel
  · obtain ⟨s, e, -, -, hc, -⟩ := C113_years_fail h hsort
    exact ⟨s, e, hc⟩

end Dcor.Props

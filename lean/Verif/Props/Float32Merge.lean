/-
C121: the mergesort method on `float32` samples.
-/
import Verif.Proofs.IntSingleMerge
import Verif.Proofs.SpecAlg
import Verif.Props.Float32
import Verif.Props.FloatMergesort
import Verif.Props.Rounding

namespace Dcor.Props

open Dcor

variable {sqrt : ℚ → ℚ} {sum sum32 : List ℚ → ℚ} {dot : List (ℚ × ℚ) → ℚ} {dot32 : List (ℚ × ℚ) → ℚ} {n : ℕ}

private theorem smallIntegers_of (hn : 0 < n) {x y : Fin n → ℤ} {X Y : ℤ} (hX : 1 ≤ X) (hY : 1 ≤ Y) (hx : ∀ i, |x i| ≤ X)
    (hy : ∀ i, |y i| ≤ Y) (hM : 16 * ((n : ℤ) * (n * (X * Y))) ≤ 2 ^ 24) :
    SmallIntegers x y X Y ∧ X ≤ 2 ^ 20 ∧ Y ≤ 2 ^ 20 ∧ (n : ℤ) ^ 2 ≤ 2 ^ 20 := by
  have hn' : (1 : ℤ) ≤ n := by exact_mod_cast hn
  have h1 : (1 : ℤ) ≤ (n : ℤ) ^ 2 := one_le_pow₀ hn'
  have hXY : 1 ≤ X * Y := one_le_mul_of_one_le_of_one_le hX hY
  have e : (n : ℤ) * (n * (X * Y)) = n ^ 2 * (X * Y) := by ring
  rw [e] at hM
  have b1 : X * Y ≤ n ^ 2 * (X * Y) := le_mul_of_one_le_left (by omega) h1
  have b2 : (n : ℤ) ^ 2 ≤ n ^ 2 * (X * Y) := le_mul_of_one_le_right (by omega) hXY
  have b3 : X ≤ X * Y := le_mul_of_one_le_right (by omega) hY
  have b4 : Y ≤ X * Y := le_mul_of_one_le_left (by omega) hX
  have hX2 : X ≤ 2 ^ 20 := by omega
  have hY2 : Y ≤ 2 ^ 20 := by omega
  refine ⟨⟨hX, hY, hx, hy, ?_, ?_, ?_⟩, hX2, hY2, by omega⟩
  · rw [mul_assoc]; omega
  · nlinarith
  · nlinarith

/-- C121, the part that holds: on `float32` samples of whole numbers that are small enough, the mergesort method returns, bit for
bit, the squared distance covariance that the naive method returns for the same observations, sorted by `x`, in `float64`. -/
theorem C121_integers_partial (h : ∀ l, SumsTo32 l (sum32 l)) (hd : ∀ l, DotsTo32 l (dot32 l)) (h64 : IsFloat64 sqrt sum dot)
    (hn : 0 < n) (bc : Bool)
    {argsort : (Fin n → ℚ) → Equiv.Perm (Fin n)} (hsort : ∀ v : Fin n → ℚ, Monotone fun i => v (argsort v i))
    {x y : Fin n → ℤ} {X Y : ℤ} (hX : 1 ≤ X) (hY : 1 ≤ Y) (hx : ∀ i, |x i| ≤ X) (hy : ∀ i, |y i| ≤ Y)
    (hM : 16 * ((n : ℤ) * (n * (X * Y))) ≤ 2 ^ 24) :
    ∃ s, Arith.mergesortStatsSingle (binary32m sum32 dot32) (binary64 sqrt sum dot) bc (fun a b => decide (b ≤ a)) argsort
        (fun i => (x i : ℚ)) (fun i => (y i : ℚ)) = .ok s ∧
      s.cov = ((binary64 sqrt sum dot).naiveStats bc
        (fun i (_ : Fin 1) => (x (argsort (fun i => (x i : ℚ)) i) : ℚ))
        (fun i (_ : Fin 1) => (y (argsort (fun i => (x i : ℚ)) i) : ℚ))).cov := by
  obtain ⟨hs, -⟩ := smallIntegers_of hn hX hY hx hy hM
  obtain ⟨s, e, hc⟩ := C66_mergesort_eq_naive_sorted h64 hs argsort hsort hn bc
  unfold Arith.mergesortStats at e
  rw [C66_mergesort_terms_exact h64 hs argsort hsort hn] at e
  unfold Arith.mergesortStatsSingle
  rw [mergesortTermsSingle_int h hd h64 hn argsort x y hX hY hx hy hM, C66_mergesort_terms_exact h64 hs argsort hsort hn]
  refine ⟨_, rfl, ?_⟩
  rw [← hc, ← Except.ok.inj e]
  rfl

/-- C121, the part that holds: on `float32` samples of whole numbers that are small enough, the error of the squared distance
covariance is that of `float64`. -/
theorem C121_integer_accuracy_partial (h : ∀ l, SumsTo32 l (sum32 l)) (hd : ∀ l, DotsTo32 l (dot32 l))
    (h64 : IsFloat64 sqrt sum dot) (hn : 0 < n)
    {argsort : (Fin n → ℚ) → Equiv.Perm (Fin n)} (hsort : ∀ v : Fin n → ℚ, Monotone fun i => v (argsort v i))
    {x y : Fin n → ℤ} {X Y : ℤ} (hX : 1 ≤ X) (hY : 1 ≤ Y) (hx : ∀ i, |x i| ≤ X) (hy : ∀ i, |y i| ≤ Y)
    (hM : 16 * ((n : ℤ) * (n * (X * Y))) ≤ 2 ^ 24) {U V : ℝ}
    (hU : ∀ i j, realDist (fun i (_ : Fin 1) => (x i : ℚ)) i j ≤ U)
    (hV : ∀ i j, realDist (fun i (_ : Fin 1) => (y i : ℚ)) i j ≤ V) :
    ∃ s, Arith.mergesortStatsSingle (binary32m sum32 dot32) (binary64 sqrt sum dot) false (fun a b => decide (b ≤ a)) argsort
        (fun i => (x i : ℚ)) (fun i => (y i : ℚ)) = .ok s ∧
      |(s.cov : ℝ) - Spec.dcovSqr (realDist fun i (_ : Fin 1) => (x i : ℚ)) (realDist fun i (_ : Fin 1) => (y i : ℚ))|
        ≤ 8 * (n ^ 2 + 4 * n + 17 : ℕ) * U * V / 2 ^ 53 := by
  obtain ⟨s, e, hc⟩ := C121_integers_partial h hd h64 hn false hsort hX hY hx hy hM
  obtain ⟨-, -, -, hN⟩ := smallIntegers_of hn hX hY hx hy hM
  have hN' : n ^ 2 ≤ 2 ^ 20 := by exact_mod_cast hN
  have hN'' : n ≤ n ^ 2 := Nat.le_self_pow (by norm_num) n
  generalize argsort (fun i => (x i : ℚ)) = σ at hc
  have b := (C72_naive_accuracy_partial h64 hn (fun i (_ : Fin 1) => (x (σ i) : ℚ)) (fun i (_ : Fin 1) => (y (σ i) : ℚ))
    (A := U) (B := V) (fun i j => hU (σ i) (σ j)) (fun i j => hV (σ i) (σ j)) (by simp; omega)).1
  rw [← hc] at b
  have r := Spec.dcovSqr_reorder σ (realDist fun i (_ : Fin 1) => (x i : ℚ)) (realDist fun i (_ : Fin 1) => (y i : ℚ))
  refine ⟨s, e, ?_⟩
  rw [← r]
  exact b

/-! ### Samples far from zero -/

private theorem mergesortStatsSingle_sorted (S D : Arith ℚ) {argsort : (Fin n → ℚ) → Equiv.Perm (Fin n)}
    (hsort : KeepsSorted argsort) (bc : Bool) (ge : ℚ → ℚ → Bool) {x y : Fin n → ℚ} (hx : Monotone x) (hy : Monotone y) :
    Arith.mergesortStatsSingle S D bc ge argsort x y = Arith.mergesortStatsSingle S D bc ge (fun _ => 1) x y := by
  have hy' : argsort (fun i => y ((1 : Equiv.Perm (Fin n)) i)) = 1 := hsort _ hy
  unfold Arith.mergesortStatsSingle Arith.mergesortTermsSingle
  dsimp only
  rw [hsort x hx, hy']

/-- C121 fails: for the years 2020, 2021, 2022, 2024 in `float32` the squared distance variance is computed as 89/64, which is right,
but the squared distance covariance of the sample with itself as 65/64, and the squared correlation is less than 0.74. -/
theorem C121_years_fail {argsort : (Fin 4 → ℚ) → Equiv.Perm (Fin 4)} (hsort : KeepsSorted argsort) :
    ∃ s, Arith.mergesortStatsSingle (binary32m seqSum32 seqDot32) seq64 false (fun a b => decide (b ≤ a)) argsort years years
        = .ok s ∧
      (∀ i, round32 (years i) = years i) ∧
      Spec.dcovSqr (realDist fun i (_ : Fin 1) => years i) (realDist fun i (_ : Fin 1) => years i) = 89 / 64 ∧
      s.cov = 65 / 64 ∧ s.varX = 89 / 64 ∧ s.varY = 89 / 64 ∧ s.corr = round64 (65 / 89) ∧ s.corr < 74 / 100 := by
  have m : Monotone years := monotone4 (by decide +kernel)
  rw [mergesortStatsSingle_sorted _ _ hsort false _ m m]
  obtain ⟨s, e, h⟩ := statsSatisfy_iff (r := Arith.mergesortStatsSingle (binary32m seqSum32 seqDot32) seq64 false
    (fun a b => decide (b ≤ a)) (fun _ => 1) years years)
    (p := fun s => decide (s.cov = 65 / 64 ∧ s.varX = 89 / 64 ∧ s.varY = 89 / 64 ∧ s.corr = round64 (65 / 89) ∧ s.corr < 74 / 100)) (by decide +kernel)
  rw [decide_eq_true_eq] at h
  refine ⟨s, e, by decide +kernel, ?_, h⟩
  unfold realDist
  rw [← exactFrom_biased (by norm_num)]
  have : exactFrom 4 false (absTerms years years).meanProd (absTerms years years).aAxis (absTerms years years).aTotal
      (absTerms years years).bAxis (absTerms years years).bTotal = 89 / 64 := by decide +kernel
  rw [this]
  norm_num

/-- C121 fails: for pressures in pascals in `float32` the squared distance covariance of the sample with itself is larger than 5000
instead of 89/64, and `distance_correlation` is larger than 60 instead of 1. -/
theorem C121_pressures_fail {argsort : (Fin 4 → ℚ) → Equiv.Perm (Fin 4)} (hsort : KeepsSorted argsort) :
    ∃ s, Arith.mergesortStatsSingle (binary32m seqSum32 seqDot32) seq64 false (fun a b => decide (b ≤ a)) argsort pressures
        pressures = .ok s ∧
      (∀ i, round32 (pressures i) = pressures i) ∧
      Spec.dcovSqr (realDist fun i (_ : Fin 1) => pressures i) (realDist fun i (_ : Fin 1) => pressures i) = 89 / 64 ∧
      5000 < s.cov ∧ s.varX = 89 / 64 ∧ s.varY = 89 / 64 ∧ 60 < seq64.sqrtClip s.corr := by
  have m : Monotone pressures := monotone4 (by decide +kernel)
  rw [mergesortStatsSingle_sorted _ _ hsort false _ m m]
  obtain ⟨s, e, h⟩ := statsSatisfy_iff (r := Arith.mergesortStatsSingle (binary32m seqSum32 seqDot32) seq64 false
    (fun a b => decide (b ≤ a)) (fun _ => 1) pressures pressures)
    (p := fun s => decide (5000 < s.cov ∧ s.varX = 89 / 64 ∧ s.varY = 89 / 64 ∧ 60 < seq64.sqrtClip s.corr)) (by decide +kernel)
  rw [decide_eq_true_eq] at h
  refine ⟨s, e, by decide +kernel, ?_, h⟩
  unfold realDist
  rw [← exactFrom_biased (by norm_num)]
  have : exactFrom 4 false (absTerms pressures pressures).meanProd (absTerms pressures pressures).aAxis
      (absTerms pressures pressures).aTotal (absTerms pressures pressures).bAxis (absTerms pressures pressures).bTotal
      = 89 / 64 := by decide +kernel
  rw [this]
  norm_num

/-- C121 fails: the column in which all observations are the odd number 16777213 (which `float32` represents) has a negative squared
distance variance, and the `distance_correlation` with the years above is larger than 0.52 instead of 0. -/
theorem C121_constant_fails {argsort : (Fin 4 → ℚ) → Equiv.Perm (Fin 4)} (hsort : KeepsSorted argsort) :
    ∃ s, Arith.mergesortStatsSingle (binary32m seqSum32 seqDot32) seq64 false (fun a b => decide (b ≤ a)) argsort
        (fun _ => 16777213) years = .ok s ∧
      round32 16777213 = 16777213 ∧
      Spec.dcovSqr (realDist fun _ (_ : Fin 1) => 16777213) (realDist fun i (_ : Fin 1) => years i) = 0 ∧
      s.cov = 7 / 64 ∧ s.varX = -7 / 64 ∧ s.varY = 89 / 64 ∧ 52 / 100 < seq64.sqrtClip s.corr := by
  have m : Monotone years := monotone4 (by decide +kernel)
  rw [mergesortStatsSingle_sorted _ _ hsort false _ monotone_const m]
  obtain ⟨s, e, h⟩ := statsSatisfy_iff (r := Arith.mergesortStatsSingle (binary32m seqSum32 seqDot32) seq64 false
    (fun a b => decide (b ≤ a)) (fun _ => 1) (fun _ => 16777213) years)
    (p := fun s => decide (s.cov = 7 / 64 ∧ s.varX = -7 / 64 ∧ s.varY = 89 / 64 ∧ 52 / 100 < seq64.sqrtClip s.corr))
    (by decide +kernel)
  rw [decide_eq_true_eq] at h
  refine ⟨s, e, by decide +kernel, ?_, h⟩
  unfold realDist
  rw [← exactFrom_biased (by norm_num)]
  have : exactFrom 4 false (absTerms (fun _ => 16777213) years).meanProd (absTerms (fun _ => 16777213) years).aAxis
      (absTerms (fun _ => 16777213) years).aTotal (absTerms (fun _ => 16777213) years).bAxis
      (absTerms (fun _ => 16777213) years).bTotal = 0 := by decide +kernel
  rw [this]
  norm_num

theorem seqDot32_dotsTo (l : List (ℚ × ℚ)) : DotsTo32 l (seqDot32 l) := by
  have key : ∀ (l l' : List (ℚ × ℚ)) (s : ℚ), l' ≠ [] → DotsTo32 l' s →
      DotsTo32 (l' ++ l) ((l.map fun p => round32 (p.1 * p.2)).foldl (fun s b => round32 (s + b)) s) := by
    intro l
    induction l with
    | nil => intro l' s _ hs; simpa using hs
    | cons b l ih =>
      intro l' s hl' hs
      have := ih (l' ++ [b]) (round32 (s + round32 (b.1 * b.2))) (by simp) (.add hl' (by simp) hs (.single b.1 b.2))
      simpa using this
  cases l with
  | nil => exact .nil
  | cons a l => exact key l [a] _ (by simp) (.single a.1 a.2)

/-- The hypotheses hold for four whole numbers up to 200: the computed statistic is within `10 ^ -10`. -/
example : ∃ s, Arith.mergesortStatsSingle (binary32m seqSum32 seqDot32) seq64 false (fun a b => decide (b ≤ a))
      (fun v => Tuple.sort v) (fun i => ((![190, 200, 195, 192] : Fin 4 → ℤ) i : ℚ))
      (fun i => ((![200, 195, 198, 197] : Fin 4 → ℤ) i : ℚ)) = .ok s ∧
    |(s.cov : ℝ) - Spec.dcovSqr (realDist fun i (_ : Fin 1) => ((![190, 200, 195, 192] : Fin 4 → ℤ) i : ℚ))
      (realDist fun i (_ : Fin 1) => ((![200, 195, 198, 197] : Fin 4 → ℤ) i : ℚ))| ≤ 1 / 10 ^ 10 := by
  have d : ∀ (z : Fin 4 → ℤ) (u : ℚ), (∀ i j, |(z i : ℚ) - z j| ≤ u) → ∀ i j, realDist (fun i (_ : Fin 1) => (z i : ℚ)) i j ≤ (u : ℝ) := by
    intro z u hz i j
    unfold realDist
    rw [distMat_cast]
    exact (Rat.cast_le (K := ℝ)).2 (hz i j)
  obtain ⟨s, e, h⟩ := C121_integer_accuracy_partial (X := 200) (Y := 200) (U := ((10 : ℚ) : ℝ)) (V := ((5 : ℚ) : ℝ)) seqSum32_sumsTo
    seqDot32_dotsTo float64_seq.1 (by norm_num) (argsort := fun v => Tuple.sort v) (fun v => Tuple.monotone_sort v)
    (x := ![190, 200, 195, 192]) (y := ![200, 195, 198, 197]) (by norm_num) (by norm_num) (by decide +kernel) (by decide +kernel)
    (by norm_num) (d _ _ (by decide +kernel)) (d _ _ (by decide +kernel))
  refine ⟨s, e, h.trans ?_⟩
  norm_num

end Dcor.Props

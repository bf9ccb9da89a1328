/-
C79–C81: the energy distance and the statistic of its test in `float64`.
-/
import Verif.Proofs.RoundingEnergy
import Verif.Proofs.EnergySpec
import Verif.Proofs.Sqrt64

namespace Dcor.Props

open Dcor

variable {sqrt : ℚ → ℚ} {sum : List ℚ → ℚ} {dot : List (ℚ × ℚ) → ℚ} {n m p : ℕ}

/-! ### C79: what survives rounding -/

/-- C79: the energy distance (V-statistic) between a nonempty sample and itself, and the statistic of the test, are
exactly zero, whatever the functions `np.sqrt` and `np.sum` return. -/
theorem C79_identical (sqrt : ℚ → ℚ) (sum : List ℚ → ℚ) (dot : List (ℚ × ℚ) → ℚ) (_hn : 0 < n) (x : Fin n → Fin p → ℚ) :
    (binary64 sqrt sum dot).energyDistance .v x x = 0 ∧ (binary64 sqrt sum dot).energyTestStatistic .v x x = 0 := by
  have key : (binary64 sqrt sum dot).energyDistance .v x x = 0 := by
    unfold Arith.energyDistance Arith.energyFromMatrices
    set a := (binary64 sqrt sum dot).mean (Arith.flatAll ((binary64 sqrt sum dot).cdist x x)) with ha
    have hf : round64 a = a := mean_isFloat _
    show round64 (round64 (round64 (round64 ((2 : ℤ) : ℚ) * a) - a) - a) = 0
    have h2 : round64 (2 * a) = 2 * a := by
      have := round64_scale a 1
      rw [zpow_one] at this
      rw [this, hf]
    rw [round64_int 2 (by norm_num), Int.cast_ofNat, h2, show 2 * a - a = a by ring, hf, sub_self, round64_zero]
  refine ⟨key, ?_⟩
  unfold Arith.energyTestStatistic
  rw [key]
  show round64 (_ * 0) = 0
  rw [mul_zero, round64_zero]

/-- A sample with decimal fractions, whose distances and sums are rounded. -/
example : (binary64 sqrt64 seqSum64 seqDot64).energyDistance .v
    (fun i (_ : Fin 1) => round64 ((![1 / 10, 1 / 3, 7 / 10] : Fin 3 → ℚ) i))
    (fun i (_ : Fin 1) => round64 ((![1 / 10, 1 / 3, 7 / 10] : Fin 3 → ℚ) i)) = 0 :=
  (C79_identical _ _ _ (by norm_num) _).1

/-- C79: adding constants to the columns of both samples or changing their signs changes no bit of the energy distance
and of the test statistic, if the additions themselves are exact. -/
theorem C79_translation (sqrt : ℚ → ℚ) (sum : List ℚ → ℚ) (dot : List (ℚ × ℚ) → ℚ) (e : EstStat)
    (x : Fin n → Fin p → ℚ) (y : Fin m → Fin p → ℚ) (c s : Fin p → ℚ) (hs : ∀ k, s k = 1 ∨ s k = -1) :
    (binary64 sqrt sum dot).energyDistance e (fun i k => s k * x i k + c k) (fun i k => s k * y i k + c k)
        = (binary64 sqrt sum dot).energyDistance e x y ∧
      (binary64 sqrt sum dot).energyTestStatistic e (fun i k => s k * x i k + c k) (fun i k => s k * y i k + c k)
        = (binary64 sqrt sum dot).energyTestStatistic e x y := by
  have key : (binary64 sqrt sum dot).energyDistance e (fun i k => s k * x i k + c k) (fun i k => s k * y i k + c k)
      = (binary64 sqrt sum dot).energyDistance e x y := by
    unfold Arith.energyDistance
    rw [cdist_move x x c s hs, cdist_move y y c s hs, cdist_move x y c s hs]
  refine ⟨key, ?_⟩
  unfold Arith.energyTestStatistic
  rw [key]

example : (binary64 sqrt64 seqSum64 seqDot64).energyDistance .u
      (fun (i : Fin 3) (_ : Fin 1) => -1 * (![0, 1, 4] : Fin 3 → ℚ) i + 2 ^ 30)
      (fun (i : Fin 2) (_ : Fin 1) => -1 * (![7, 5] : Fin 2 → ℚ) i + 2 ^ 30)
    = (binary64 sqrt64 seqSum64 seqDot64).energyDistance .u (fun i (_ : Fin 1) => (![0, 1, 4] : Fin 3 → ℚ) i)
      (fun i (_ : Fin 1) => (![7, 5] : Fin 2 → ℚ) i) :=
  (C79_translation _ _ _ .u _ _ _ _ fun _ => Or.inr rfl).1

/-- C79: multiplying both samples by a power of two multiplies the energy distance and the test statistic by it, with no
additional rounding error. -/
theorem C79_power_of_two (h : Equivariant sqrt sum dot) (j : ℤ) (e : EstStat) (x : Fin n → Fin p → ℚ)
    (y : Fin m → Fin p → ℚ) :
    (binary64 sqrt sum dot).energyDistance e (fun i k => 2 ^ j * x i k) (fun i k => 2 ^ j * y i k)
        = 2 ^ j * (binary64 sqrt sum dot).energyDistance e x y ∧
      (binary64 sqrt sum dot).energyTestStatistic e (fun i k => 2 ^ j * x i k) (fun i k => 2 ^ j * y i k)
        = 2 ^ j * (binary64 sqrt sum dot).energyTestStatistic e x y := by
  have all : ∀ {n m : ℕ} (d : Fin n → Fin m → ℚ),
      Arith.flatAll (fun k l => 2 ^ j * d k l) = (Arith.flatAll d).map fun a => 2 ^ j * a := by
    intro n m d
    simp only [flatAll_eq, List.map_map]
    rfl
  have upper : ∀ {n : ℕ} (d : Fin n → Fin n → ℚ),
      Arith.flatUpper (fun k l => 2 ^ j * d k l) = (Arith.flatUpper d).map fun a => 2 ^ j * a := by
    intro n d
    simp only [arithFlatUpper_eq, List.map_map]
    rfl
  have key : (binary64 sqrt sum dot).energyDistance e (fun i k => 2 ^ j * x i k) (fun i k => 2 ^ j * y i k)
      = 2 ^ j * (binary64 sqrt sum dot).energyDistance e x y := by
    unfold Arith.energyDistance Arith.energyFromMatrices
    rw [scale_cdist h, scale_cdist h, scale_cdist h]
    cases e <;> simp only [all, upper, scale_mean h, scale_imul, scale_sub]
  refine ⟨key, ?_⟩
  unfold Arith.energyTestStatistic
  rw [key]
  have := scale_mul (sqrt := sqrt) (sum := sum) (dot := dot) 0 j ((binary64 sqrt sum dot).div
    ((binary64 sqrt sum dot).ofInt (n * m)) ((binary64 sqrt sum dot).ofInt (n + m)))
    ((binary64 sqrt sum dot).energyDistance e x y)
  rwa [zpow_zero, one_mul, zero_add] at this

example : (binary64 sqrt64 seqSum64 seqDot64).energyDistance .v
      (fun (i : Fin 3) (k : Fin 2) => 2 ^ (-7 : ℤ) * (![![0, 1], ![1, 3], ![4, 7]] : Fin 3 → Fin 2 → ℚ) i k)
      (fun (i : Fin 2) (k : Fin 2) => 2 ^ (-7 : ℤ) * (![![7, 5], ![1, 2]] : Fin 2 → Fin 2 → ℚ) i k)
    = 2 ^ (-7 : ℤ) * (binary64 sqrt64 seqSum64 seqDot64).energyDistance .v
      (![![0, 1], ![1, 3], ![4, 7]] : Fin 3 → Fin 2 → ℚ) (![![7, 5], ![1, 2]] : Fin 2 → Fin 2 → ℚ) :=
  (C79_power_of_two float64_seq.2 (-7) .v _ _).1

/-! ### C80: accuracy -/

section C80

variable (h : IsFloat64 sqrt sum dot) (x : Fin n → Fin p → ℚ) (y : Fin m → Fin p → ℚ) {D : ℝ}
  (hxx : ∀ i j, Spec.dist 1 (toReal x i) (toReal x j) ≤ D) (hyy : ∀ i j, Spec.dist 1 (toReal y i) (toReal y j) ≤ D)
  (hxy : ∀ i j, Spec.dist 1 (toReal x i) (toReal y j) ≤ D) (hK : max n m ^ 2 + p + 15 ≤ 2 ^ 53)

theorem error_bound {K : ℕ} {D : ℝ} (hD : 0 ≤ D) (hK : K ≤ 2 ^ 53) :
    ((1 + uRound) ^ K - 1) * (4 * D) ≤ 8 * K * D / 2 ^ 53 := by
  have := mul_le_mul_of_nonneg_right (pow_sub_one_le hK) (show 0 ≤ 4 * D by linarith)
  refine this.trans (le_of_eq ?_)
  ring

include h hxx hyy hxy hK

/-- C80, V-statistic: if no two observations are at a distance greater than `D`, the computed energy distance is within
`8 * (max(n, m) ** 2 + p + 10) * 2 ** -53 * D` of the exact one, and the computed test statistic is within
`8 * (max(n, m) ** 2 + p + 15) * 2 ** -53 * D * n * m / (n + m)` of the exact one, whatever the magnitude of the samples
and the order of the sums. -/
theorem C80_accuracy_v (hn : 0 < n) (hm : 0 < m) :
    |((binary64 sqrt sum dot).energyDistance .v x y : ℝ) - Spec.energyV 1 (toReal x) (toReal y)|
        ≤ 8 * (max n m ^ 2 + p + 10 : ℕ) * D / 2 ^ 53 ∧
      |((binary64 sqrt sum dot).energyTestStatistic .v x y : ℝ)
          - n * m / (n + m) * Spec.energyV 1 (toReal x) (toReal y)|
        ≤ 8 * (max n m ^ 2 + p + 15 : ℕ) * (n * m / (n + m) * D) / 2 ^ 53 := by
  have hD : 0 ≤ D := by
    refine le_trans ?_ (hxx ⟨0, hn⟩ ⟨0, hn⟩)
    unfold Spec.dist
    positivity
  obtain ⟨h1, h2⟩ := energyV_error h x y hxx hyy hxy hn hm
  refine ⟨h1.trans (error_bound hD (by omega)), (energyTest_error hn hm h1 h2).trans ?_⟩
  rw [mul_left_comm _ 4 D]
  exact error_bound (by positivity) (by omega)

/-- C80, U-statistic. -/
theorem C80_accuracy_u (hn : 2 ≤ n) (hm : 2 ≤ m) :
    |((binary64 sqrt sum dot).energyDistance .u x y : ℝ) - Spec.energyU 1 (toReal x) (toReal y)|
        ≤ 8 * (max n m ^ 2 + p + 10 : ℕ) * D / 2 ^ 53 ∧
      |((binary64 sqrt sum dot).energyTestStatistic .u x y : ℝ)
          - n * m / (n + m) * Spec.energyU 1 (toReal x) (toReal y)|
        ≤ 8 * (max n m ^ 2 + p + 15 : ℕ) * (n * m / (n + m) * D) / 2 ^ 53 := by
  have hD : 0 ≤ D := by
    refine le_trans ?_ (hxx ⟨0, by omega⟩ ⟨0, by omega⟩)
    unfold Spec.dist
    positivity
  obtain ⟨h1, h2⟩ := energyU_error h x y hxx hyy hxy hn hm
  refine ⟨h1.trans (error_bound hD (by omega)), (energyTest_error (by omega) (by omega) h1 h2).trans ?_⟩
  rw [mul_left_comm _ 4 D]
  exact error_bound (by positivity) (by omega)

end C80

theorem dist_line (a b : ℚ) : Spec.dist 1 (fun _ : Fin 1 => (a : ℝ)) (fun _ => (b : ℝ)) = ((|a - b| : ℚ) : ℝ) := by
  unfold Spec.dist
  rw [Real.rpow_one, Fin.sum_univ_one, Real.sqrt_sq_eq_abs]
  push_cast
  rfl

/-- `[0, 1, 4] + 2 ** 30` and `[7, 5] + 2 ** 30`: distances are at most 7, and the error is at most `10 ** -12`. -/
example : |((binary64 sqrt64 seqSum64 seqDot64).energyDistance .u
      (fun (i : Fin 3) (_ : Fin 1) => (![0, 1, 4] : Fin 3 → ℚ) i + 2 ^ 30)
      (fun (i : Fin 2) (_ : Fin 1) => (![7, 5] : Fin 2 → ℚ) i + 2 ^ 30) : ℝ)
    - Spec.energyU 1 (toReal fun (i : Fin 3) (_ : Fin 1) => (![0, 1, 4] : Fin 3 → ℚ) i + 2 ^ 30)
      (toReal fun (i : Fin 2) (_ : Fin 1) => (![7, 5] : Fin 2 → ℚ) i + 2 ^ 30)| ≤ 1 / 10 ^ 12 := by
  refine (C80_accuracy_u (D := (7 : ℚ)) float64_seq.1 _ _ ?_ ?_ ?_ (by norm_num) (by norm_num) (by norm_num)).1.trans ?_
  · intro i j
    unfold toReal
    rw [dist_line, Rat.cast_le]
    revert i j
    decide +kernel
  · intro i j
    unfold toReal
    rw [dist_line, Rat.cast_le]
    revert i j
    decide +kernel
  · intro i j
    unfold toReal
    rw [dist_line, Rat.cast_le]
    revert i j
    decide +kernel
  · norm_num

/-! ### C81: symmetry and sign -/

/-- C81, symmetry, if one of the samples is a single observation: the energy distance of `x` and `y` is bit by bit the
energy distance of `y` and `x`. Missing: samples of at least two observations, see `C81_approximate_partial` and
`C81_symmetry_fails`. -/
theorem C81_single_partial (h : IsFloat64 sqrt sum dot) (x : Fin 1 → Fin p → ℚ) (y : Fin m → Fin p → ℚ) :
    (binary64 sqrt sum dot).energyDistance .v x y = (binary64 sqrt sum dot).energyDistance .v y x := by
  have hxx : (binary64 sqrt sum dot).mean (Arith.flatAll ((binary64 sqrt sum dot).cdist x x)) = 0 := by
    have : Arith.flatAll ((binary64 sqrt sum dot).cdist x x) = [0] := by
      rw [← cdist_diag h x 0]
      rfl
    rw [this]
    show round64 (sum [0] / _) = 0
    rw [(h.sum [0]).zero (by simp), zero_div, round64_zero]
  have hxy : Arith.flatAll ((binary64 sqrt sum dot).cdist x y) = Arith.flatAll ((binary64 sqrt sum dot).cdist y x) := by
    have e : (binary64 sqrt sum dot).cdist y x = fun i j => (binary64 sqrt sum dot).cdist x y j i := by
      funext i j
      exact cdist_self_symm y x i j
    rw [e]
    unfold Arith.flatAll
    have h1 : List.finRange 1 = [0] := rfl
    rw [h1]
    simp only [List.flatMap_cons, List.flatMap_nil, List.append_nil, List.map_cons, List.map_nil]
    rw [← List.map_eq_flatMap]
  unfold Arith.energyDistance Arith.energyFromMatrices
  simp only [hxx, hxy]
  show round64 (round64 (round64 _ - 0) - _) = round64 (round64 (round64 _ - _) - 0)
  rw [sub_zero, sub_zero, round64_idem, round64_idem]

example : (binary64 sqrt64 seqSum64 seqDot64).energyDistance .v (fun (_ : Fin 1) (_ : Fin 1) => (3 / 10 : ℚ))
      (fun (i : Fin 3) (_ : Fin 1) => (![7 / 10, 1 / 3, 5] : Fin 3 → ℚ) i)
    = (binary64 sqrt64 seqSum64 seqDot64).energyDistance .v
      (fun (i : Fin 3) (_ : Fin 1) => (![7 / 10, 1 / 3, 5] : Fin 3 → ℚ) i) (fun (_ : Fin 1) (_ : Fin 1) => (3 / 10 : ℚ)) :=
  C81_single_partial float64_seq.1 _ _

/-- C81 up to rounding errors: if no two observations are at a distance greater than `D`, swapping the samples changes
the energy distance by at most `16 * (max(n, m) ** 2 + p + 10) * 2 ** -53 * D`, and the energy distance is not less than
minus half of this. Missing: exact symmetry and sign, which fail, see `C81_symmetry_fails` and `C81_negative`. -/
theorem C81_approximate_partial (h : IsFloat64 sqrt sum dot) (hn : 0 < n) (hm : 0 < m) (x : Fin n → Fin p → ℚ)
    (y : Fin m → Fin p → ℚ) {D : ℝ} (hxx : ∀ i j, Spec.dist 1 (toReal x i) (toReal x j) ≤ D)
    (hyy : ∀ i j, Spec.dist 1 (toReal y i) (toReal y j) ≤ D) (hxy : ∀ i j, Spec.dist 1 (toReal x i) (toReal y j) ≤ D)
    (hK : max n m ^ 2 + p + 15 ≤ 2 ^ 53) :
    |((binary64 sqrt sum dot).energyDistance .v x y : ℝ) - ((binary64 sqrt sum dot).energyDistance .v y x : ℝ)|
        ≤ 16 * (max n m ^ 2 + p + 10 : ℕ) * D / 2 ^ 53 ∧
      -(8 * (max n m ^ 2 + p + 10 : ℕ) * D / 2 ^ 53) ≤ ((binary64 sqrt sum dot).energyDistance .v x y : ℝ) := by
  have h1 := (C80_accuracy_v h x y hxx hyy hxy hK hn hm).1
  have h2 := (C80_accuracy_v h y x hyy hxx (fun i j => by rw [Spec.dist_symm]; exact hxy j i)
    (by rw [max_comm]; exact hK) hm hn).1
  rw [Spec.energyV_comm, max_comm m n] at h2
  have h3 := Spec.energyV_nonneg hn hm (toReal x) (toReal y) (α := 1) (by norm_num) (by norm_num)
  have h4 := abs_le.1 h1
  have h5 := abs_le.1 h2
  refine ⟨abs_le.2 ⟨?_, ?_⟩, ?_⟩
  all_goals
    ring_nf at h4 h5 ⊢
    linarith

/-- The samples `[0, 1]` and `[0, 1 + 2 ** -52]` of `C81_negative`. -/
example : -(1 / 10 ^ 12) ≤ ((binary64 sqrt64 seqSum64 seqDot64).energyDistance .v
    (fun i (_ : Fin 1) => (![0, 1] : Fin 2 → ℚ) i) (fun i (_ : Fin 1) => (![0, 1 + 1 / 2 ^ 52] : Fin 2 → ℚ) i) : ℝ) := by
  refine le_trans ?_ (C81_approximate_partial (D := (2 : ℚ)) float64_seq.1 (by norm_num) (by norm_num) _ _ ?_ ?_ ?_
    (by norm_num)).2
  · norm_num
  all_goals
    intro i j
    unfold toReal
    rw [dist_line, Rat.cast_le]
    revert i j
    decide +kernel

/-- C81 fails: the energy distances of `[0, 1]` and `[0, 2 ** -53]` and of `[0, 2 ** -53]` and `[0, 1]` differ. -/
theorem C81_symmetry_fails :
    (binary64 sqrt64 seqSum64 seqDot64).energyDistance .v (fun i (_ : Fin 1) => (![0, 1] : Fin 2 → ℚ) i)
        (fun i (_ : Fin 1) => (![0, 1 / 2 ^ 53] : Fin 2 → ℚ) i) = 1 / 2 - 1 / 2 ^ 54 ∧
      (binary64 sqrt64 seqSum64 seqDot64).energyDistance .v (fun i (_ : Fin 1) => (![0, 1 / 2 ^ 53] : Fin 2 → ℚ) i)
        (fun i (_ : Fin 1) => (![0, 1] : Fin 2 → ℚ) i) = 1 / 2 := by
  decide +kernel

/-- C81 fails: the energy distance of `[0, 1]` and `[0, 1 + 2 ** -52]` is negative, so that its square root is NaN. -/
theorem C81_negative :
    (binary64 sqrt64 seqSum64 seqDot64).energyDistance .v (fun i (_ : Fin 1) => (![0, 1] : Fin 2 → ℚ) i)
        (fun i (_ : Fin 1) => (![0, 1 + 1 / 2 ^ 52] : Fin 2 → ℚ) i) = -(1 / 2 ^ 53) := by
  decide +kernel

end Dcor.Props

/-
Property C133: matrices of unsigned integers.
-/
import Verif.Proofs.UnsignedMatrix
import Verif.Props.Energy
import Verif.Props.Witness

namespace Dcor.Props

open Finset

variable {n m p q w w' : ℕ} {env : Env} {o : EnergyOpts} {α : ℝ}

/-- The observations as real numbers. -/
def realOf (x : Fin n → Fin p → BitVec w) : Fin n → Fin p → ℝ := fun i c => ((x i c).toNat : ℝ)

/-- The squares of the differences fit in `w` bits, and their sums in 64 bits. -/
def SquaresFit (x : Fin n → Fin p → BitVec w) (y : Fin m → Fin p → BitVec w) : Prop :=
  (∀ i k c, (((x i c).toNat : ℤ) - (y k c).toNat) ^ 2 < 2 ^ w) ∧ ∀ i k, ∑ c, (((x i c).toNat : ℤ) - (y k c).toNat) ^ 2 < 2 ^ 64

private theorem pairwise_real {x : Fin n → Fin p → BitVec w} (h : SquaresFit x x) (α : ℝ) :
    pairwiseDistancesUnsigned x α = Spec.distMat α (realOf x) := by
  funext i j
  rw [pairwiseDistancesUnsigned_symm x α i j]
  exact cdistNaiveUnsigned_eq x x α h.1 h.2 j i

/-- C133, the part that holds for the energy distance: if the squares of the differences fit, the result for unsigned integers is that
for the same numbers in a `float64` array. Missing: other samples, see `C133_multiples_energy` and `C133_energy_negative`. -/
theorem C133_energy_partial {s : EstStat} (hs : o.stat.resolve env = .ok s) {a b : Arr} {x : Fin n → Fin p → BitVec w}
    {y : Fin m → Fin p → BitVec w} (hc : EnergyCall a b o (realOf x) (realOf y)) (hd : a.dtype ≠ .decimal)
    (hx : SquaresFit x x) (hy : SquaresFit y y) (hxy : SquaresFit x y) :
    energyDistanceUnsigned env x y o = (energyDistance env a b o).out := by
  rw [energyDistanceUnsigned_eq hs hc.mean (pairwise_real hx _) (pairwise_real hy _)
    fun k i => cdistNaiveUnsigned_eq x y _ hxy.1 hxy.2 k i]
  have k : energyKind a = .npFloat := if_neg hd
  cases s with
  | v =>
    by_cases h0 : n = 0 ∨ m = 0
    · rw [energyDistance_nan hc hs (by omega), k]
      simp only [Spec.energyFP, if_pos h0]
    · rw [energyDistance_v hc hs (by omega) (by omega), k]
      simp only [Spec.energyFP, if_neg h0]
  | u =>
    by_cases h0 : n ≤ 1 ∨ m ≤ 1
    · rw [energyDistance_nan hc hs (.inr (.inr ⟨rfl, h0⟩)), k]
      simp only [Spec.energyFP, if_pos h0]
    · rw [energyDistance_u hc hs (by omega) (by omega), k]
      simp only [Spec.energyFP, if_neg h0]

/-- C133, the part that holds for the naive method, which is used for samples of several columns. -/
theorem C133_covariance_partial {a b : Arr} {d : Opts} {x : Fin n → Fin p → BitVec w} {y : Fin n → Fin q → BitVec w'}
    (hc : Supported env a b d (realOf x) (realOf y)) (hn : 0 < n) (hx : SquaresFit x x) (hy : SquaresFit y y) :
    statsSqrNaiveUnsigned x y d.exponent false = (distanceStatsSqr env a b d).out := by
  rw [statsSqrNaiveUnsigned_biased hn x y, pairwise_real hx, pairwise_real hy, distanceStatsSqr_ok hc hn]

/-- C133, the same for the bias-corrected statistics. -/
theorem C133_u_covariance_partial {a b : Arr} {d : Opts} {x : Fin n → Fin p → BitVec w} {y : Fin n → Fin q → BitVec w'}
    (hc : Supported env a b d (realOf x) (realOf y)) (hn : 3 < n) (hα : d.exponent ≠ 0) (hx : SquaresFit x x) (hy : SquaresFit y y) :
    statsSqrNaiveUnsigned x y d.exponent true = (uDistanceStatsSqr env a b d).out := by
  rw [statsSqrNaiveUnsigned_unbiased hn x y hα, pairwise_real hx, pairwise_real hy, uDistanceStatsSqr_ok hc hn hα]

/-- C133 fails: if all values are multiples of `2 ^ k` and `2 k` is at least the number of bits, as for `uint8` values that are multiples
of 16, then `energy_distance` is zero, whatever the two samples. -/
theorem C133_multiples_energy {k : ℕ} (hk : w ≤ 2 * k) (hs : o.stat.resolve env = .ok .v) (hm : o.average = none) (hα : o.exponent ≠ 0)
    {N M : ℕ} {x : Fin (N + 1) → Fin p → BitVec w} {y : Fin (M + 1) → Fin p → BitVec w} (hx : ∀ i c, 2 ^ k ∣ (x i c).toNat)
    (hy : ∀ i c, 2 ^ k ∣ (y i c).toNat) : energyDistanceUnsigned env x y o = .ok ⟨.fin 0, .npFloat⟩ := by
  have z : Spec.dist (p := 1) o.exponent 0 0 = 0 := by simp [Spec.dist, hα]
  rw [energyDistanceUnsigned_eq (q := 1) (X := fun _ => 0) (Y := fun _ => 0) hs hm]
  · simp [Spec.energyFP, Spec.energyV, Spec.crossMean, z]
  · funext i j
    exact (cdistNaiveUnsigned_multiples hk hα hx hx i j).trans z.symm
  · funext i j
    exact (cdistNaiveUnsigned_multiples hk hα hy hy i j).trans z.symm
  · intro j i
    exact (cdistNaiveUnsigned_multiples hk hα hx hy j i).trans z.symm

/-- C133 fails: for such a sample the naive method returns zero for the covariance and the correlation with any sample, also with itself,
and for the variance. -/
theorem C133_multiples_covariance {k : ℕ} (hk : w ≤ 2 * k) (hα : α ≠ 0) (hn : 0 < n) {x : Fin n → Fin p → BitVec w}
    (hx : ∀ i c, 2 ^ k ∣ (x i c).toNat) (y : Fin n → Fin q → BitVec w') :
    ∃ v, statsSqrNaiveUnsigned x y α false = .ok ⟨.fin 0, .fin 0, .fin 0, v⟩ := by
  have z : pairwiseDistancesUnsigned x α = fun _ _ => 0 := by
    funext i j
    exact cdistNaiveUnsigned_multiples hk hα hx hx i j
  have e (b : Fin n → Fin n → ℝ) : Spec.dcovSqr (fun _ _ => 0) b = 0 := by simp [Spec.dcovSqr, Spec.centre]
  rw [statsSqrNaiveUnsigned_biased hn x y α, z]
  simp only [Spec.dcorSqr, e, Spec.ratio, zero_mul, if_true]
  exact ⟨_, rfl⟩

/-- C133 fails: `energy_distance` of the `uint8` samples `[0, 15]` and `[16]` is negative. -/
theorem C133_energy_negative :
    energyDistanceUnsigned (w := 8) (n := 2) (m := 1) (p := 1) stdEnv ![![0], ![15]] ![![16]] ⟨1, none, .enum .v⟩
      = .ok ⟨.fin (-13 / 2), .npFloat⟩ := by
  have r15 : (225 : ℝ) ^ (1 / 2 : ℝ) = 15 := by
    rw [← Real.sqrt_eq_rpow, show (225 : ℝ) = 15 ^ 2 by norm_num, Real.sqrt_sq (by norm_num)]
  have sx (i j : Fin 2) : (sumUnsigned fun c : Fin 1 => ((![![0], ![15]] : Fin 2 → Fin 1 → BitVec 8) j c
      - (![![0], ![15]] : Fin 2 → Fin 1 → BitVec 8) i c) ^ 2).toNat = if i = j then 0 else 225 := by
    fin_cases i <;> fin_cases j <;> decide
  have sy (i j : Fin 1) : (sumUnsigned fun c : Fin 1 => ((![![16]] : Fin 1 → Fin 1 → BitVec 8) j c
      - (![![16]] : Fin 1 → Fin 1 → BitVec 8) i c) ^ 2).toNat = 0 := by
    fin_cases i <;> fin_cases j <;> decide
  have sxy (i : Fin 1) (j : Fin 2) : (sumUnsigned fun c : Fin 1 => ((![![0], ![15]] : Fin 2 → Fin 1 → BitVec 8) j c
      - (![![16]] : Fin 1 → Fin 1 → BitVec 8) i c) ^ 2).toNat = j.val := by
    fin_cases i <;> fin_cases j <;> decide
  unfold energyDistanceUnsigned energyFromMatrices
  show Except.ok (Scalar.mk _ _) = _
  congr 2
  simp only [averageFun, withinArg]
  rw [meanOf_mat (by norm_num) (by norm_num), meanOf_mat (by norm_num) (by norm_num), meanOf_mat (by norm_num) (by norm_num),
    FP.fin_mul, FP.fin_sub, FP.fin_sub]
  unfold pairwiseDistancesUnsigned cdistNaiveUnsigned
  simp only [sx, sy, sxy, Fin.sum_univ_two, Fin.sum_univ_one]
  norm_num [r15]

private def pixels : Fin 4 → Fin 2 → BitVec 8 := ![![250, 3], ![255, 0], ![240, 12], ![241, 5]]

private theorem pixels_fit : SquaresFit pixels pixels := by
  unfold SquaresFit
  decide

example := C133_energy_partial (env := stdEnv) (s := .u) (w := 8) rfl (energyCall_mat (realOf pixels) (realOf pixels) zero_le_one (.enum .u))
  (by simp [npMat]) pixels_fit pixels_fit pixels_fit
example := C133_covariance_partial (w := 8) (w' := 8) (supported_mat (realOf pixels) (realOf pixels) 1 zero_le_one) (by norm_num)
  pixels_fit pixels_fit
example := C133_u_covariance_partial (w := 8) (w' := 8) (supported_mat (realOf pixels) (realOf pixels) 1 zero_le_one) (by norm_num)
  one_ne_zero pixels_fit pixels_fit
example := C133_multiples_energy (env := stdEnv) (o := ⟨1, none, .enum .v⟩) (w := 8) (k := 4) (by norm_num) rfl rfl one_ne_zero
  (x := ![![0, 16], ![32, 240]]) (y := ![![128, 112], ![16, 16], ![96, 0]]) (by decide) (by decide)
example := C133_multiples_covariance (w := 8) (w' := 8) (k := 4) (α := 1) (n := 3) (by norm_num) one_ne_zero (by norm_num)
  (x := ![![128, 112], ![16, 16], ![96, 0]]) (by decide) ![![1], ![2], ![(3 : BitVec 8)]]

end Dcor.Props

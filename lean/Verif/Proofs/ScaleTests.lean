/-
Multiplying the samples by powers of two multiplies every intermediate result of the partial statistics and of the
permutation tests by a power of two, without rounding errors.
-/
import Verif.Model.RoundingTests
import Verif.Proofs.RoundingEnergy

namespace Dcor

variable {sqrt : ℚ → ℚ} {sum : List ℚ → ℚ} {dot : List (ℚ × ℚ) → ℚ} {n : ℕ}

local notation "B" => binary64 sqrt sum dot

theorem scale_div (i j : ℤ) (a b : ℚ) : Arith.div B (2 ^ i * a) (2 ^ j * b) = 2 ^ (i - j) * Arith.div B a b := by
  show round64 _ = _ * round64 _
  rw [← round64_scale, zpow_sub₀ (by norm_num)]
  congr 1
  rw [mul_div_mul_comm]

theorem scale_products (i j : ℤ) (a b : Fin n → Fin n → ℚ) :
    Arith.products B (fun k l => 2 ^ i * a k l) (fun k l => 2 ^ j * b k l)
      = (Arith.products B a b).map fun t => 2 ^ (i + j) * t := by
  unfold Arith.products
  rw [flatAll_eq, flatAll_eq, List.map_map]
  apply List.map_congr_left
  intro kl _
  exact scale_mul i j _ _

variable (h : Equivariant sqrt sum dot)

include h

theorem scale_doubleCentered (j : ℤ) (a : Fin n → Fin n → ℚ) :
    Arith.doubleCentered B (fun k l => 2 ^ j * a k l) = fun k l => 2 ^ j * Arith.doubleCentered B a k l := by
  have e : Arith.axisSum B (fun k l => 2 ^ j * a k l) = fun k => 2 ^ j * Arith.axisSum B a k :=
    funext fun k => scale_axisSum h j a k
  funext k l
  unfold Arith.doubleCentered
  simp only [e, scale_vsum h, scale_idiv, scale_sub, scale_add]

theorem scale_uCentered (j : ℤ) (a : Fin n → Fin n → ℚ) :
    Arith.uCentered B (fun k l => 2 ^ j * a k l) = fun k l => 2 ^ j * Arith.uCentered B a k l := by
  have e : Arith.axisSum B (fun k l => 2 ^ j * a k l) = fun k => 2 ^ j * Arith.axisSum B a k :=
    funext fun k => scale_axisSum h j a k
  funext k l
  unfold Arith.uCentered
  simp only [e, scale_vsum h, scale_idiv, scale_sub, scale_add]
  split_ifs
  · exact scale_zero j
  · rfl

theorem scale_meanProduct (i j : ℤ) (a b : Fin n → Fin n → ℚ) :
    Arith.meanProduct B (fun k l => 2 ^ i * a k l) (fun k l => 2 ^ j * b k l) = 2 ^ (i + j) * Arith.meanProduct B a b := by
  unfold Arith.meanProduct
  rw [scale_products, scale_mean h]

theorem scale_uProduct (i j : ℤ) (a b : Fin n → Fin n → ℚ) :
    Arith.uProduct B (fun k l => 2 ^ i * a k l) (fun k l => 2 ^ j * b k l) = 2 ^ (i + j) * Arith.uProduct B a b := by
  unfold Arith.uProduct
  rw [scale_products, show Arith.sum B = sum from rfl, h.sum, scale_idiv]

theorem scale_complementary (i j : ℤ) (c a : Fin n → Fin n → ℚ) :
    Arith.uComplementaryProjection B (fun k l => 2 ^ j * c k l) (fun k l => 2 ^ i * a k l)
      = fun k l => 2 ^ i * Arith.uComplementaryProjection B c a k l := by
  have e : Arith.uProjection B (fun k l => 2 ^ j * c k l) (fun k l => 2 ^ i * a k l)
      = fun k l => 2 ^ i * Arith.uProjection B c a k l := by
    unfold Arith.uProjection
    simp only [scale_uProduct h, scale_eqZero]
    split_ifs
    · funext k l
      exact scale_zero i
    · funext k l
      rw [scale_div, scale_mul]
      congr 2
      ring
  funext k l
  unfold Arith.uComplementaryProjection
  rw [e, scale_sub]

theorem scale_uDistanceMatrix {p : ℕ} (j : ℤ) (x : Fin n → Fin p → ℚ) :
    Arith.uDistanceMatrix B (fun k c => 2 ^ j * x k c) = fun k l => 2 ^ j * Arith.uDistanceMatrix B x k l := by
  unfold Arith.uDistanceMatrix
  rw [← scale_uCentered h]
  congr 1
  funext k l
  exact scale_euclidean h j x k l

theorem scale_clippedCorrelation (i : ℤ) (a b : ℚ) :
    Arith.clippedCorrelation B (2 ^ i * a) (2 ^ (i + i) * b) = Arith.clippedCorrelation B a b := by
  unfold Arith.clippedCorrelation
  rw [scale_eqZero, scale_sqrtClip h, scale_div, sub_self, zpow_zero, one_mul]
  congr 1
  split_ifs with h0
  · have : b = 0 := by
      have : decide (b = round64 ((0 : ℤ) : ℚ)) = true := h0
      rwa [Int.cast_zero, round64_zero, decide_eq_true_eq] at this
    rw [this, mul_zero]
  · rfl

theorem scale_partialCorrelation {p q r : ℕ} (i j k : ℤ) (x : Fin n → Fin p → ℚ) (y : Fin n → Fin q → ℚ)
    (z : Fin n → Fin r → ℚ) :
    Arith.partialCorrelation B (fun l c => 2 ^ i * x l c) (fun l c => 2 ^ j * y l c) (fun l c => 2 ^ k * z l c)
      = Arith.partialCorrelation B x y z := by
  have key : ∀ (i j : ℤ) (a b c : ℚ), Arith.clippedCorrelation B (2 ^ (i + j) * a) (Arith.mul B (2 ^ (i + i) * b)
      (2 ^ (j + j) * c)) = Arith.clippedCorrelation B a (Arith.mul B b c) := by
    intro i j a b c
    rw [scale_mul, show i + i + (j + j) = (i + j) + (i + j) by ring, scale_clippedCorrelation h]
  unfold Arith.partialCorrelation
  simp only [scale_uDistanceMatrix h, scale_uProduct h, key]

theorem scale_energyFromMatrices {m : ℕ} (j : ℤ) (s : EstStat) (dxx : Fin n → Fin n → ℚ) (dyy : Fin m → Fin m → ℚ)
    (dxy : Fin n → Fin m → ℚ) :
    Arith.energyFromMatrices B s (fun k l => 2 ^ j * dxx k l) (fun k l => 2 ^ j * dyy k l) (fun k l => 2 ^ j * dxy k l)
      = 2 ^ j * Arith.energyFromMatrices B s dxx dyy dxy := by
  have all : ∀ {a b : ℕ} (d : Fin a → Fin b → ℚ), Arith.flatAll (fun k l => 2 ^ j * d k l)
      = (Arith.flatAll d).map fun t => 2 ^ j * t := by
    intro a b d
    rw [flatAll_eq, flatAll_eq, List.map_map]
    rfl
  have upper : ∀ {a : ℕ} (d : Fin a → Fin a → ℚ), Arith.flatUpper (fun k l => 2 ^ j * d k l)
      = (Arith.flatUpper d).map fun t => 2 ^ j * t := by
    intro a d
    rw [arithFlatUpper_eq, arithFlatUpper_eq, List.map_map]
    rfl
  unfold Arith.energyFromMatrices
  cases s <;> simp only [all, upper, scale_mean h, scale_imul, scale_sub]

theorem scale_energyMultivariate {k : ℕ} {size : Fin k → ℕ} (j : ℤ) (s : EstStat)
    (d : Fin (∑ b, size b) → Fin (∑ b, size b) → ℚ) :
    Arith.energyMultivariate B s (fun a b => 2 ^ j * d a b) = 2 ^ j * Arith.energyMultivariate B s d := by
  have hp : ∀ b c : Fin k, Arith.pairEnergy B s (fun a b => 2 ^ j * d a b) b c = 2 ^ j * Arith.pairEnergy B s d b c := by
    intro b c
    unfold Arith.pairEnergy
    have eb : ∀ b c : Fin k, Arith.block (fun a b => 2 ^ j * d a b) b c = fun a e => 2 ^ j * Arith.block d b c a e :=
      fun b c => rfl
    rw [eb, eb, eb, scale_energyFromMatrices h]
    have := scale_mul (sqrt := sqrt) (sum := sum) (dot := dot) 0 j (Arith.div B
      (Arith.ofInt B ((size b : ℤ) * size c)) (Arith.ofInt B ((size b : ℤ) + size c)))
      (Arith.energyFromMatrices B s (Arith.block d b b) (Arith.block d c c) (Arith.block d b c))
    rwa [zpow_zero, one_mul, zero_add] at this
  have hl : Arith.pairEnergies B s (fun a b => 2 ^ j * d a b) = (Arith.pairEnergies B s d).map fun t => 2 ^ j * t := by
    unfold Arith.pairEnergies
    rw [List.map_flatMap]
    congr 1
    funext b
    rw [List.map_map]
    exact List.map_congr_left fun c _ => hp b c
  unfold Arith.energyMultivariate
  rw [hl]
  match Arith.pairEnergies B s d with
  | [] => exact scale_zero j
  | e :: l =>
    show (l.map fun t => 2 ^ j * t).foldl (Arith.add B) (2 ^ j * e) = 2 ^ j * l.foldl (Arith.add B) e
    clear hl
    induction l generalizing e with
    | nil => rfl
    | cons a l ih =>
      show (l.map fun t => 2 ^ j * t).foldl (Arith.add B) (Arith.add B (2 ^ j * e) (2 ^ j * a)) = _
      rw [scale_add]
      exact ih _

omit h in
/-- If every statistic is multiplied by the same power of two the p-value does not change. -/
theorem scale_permutationTest (j : ℤ) (perms : List (Equiv.Perm (Fin n))) (d d' : Fin n → Fin n → ℚ)
    (stat stat' : (Fin n → Fin n → ℚ) → ℚ) (hd : stat' d' = 2 ^ j * stat d)
    (hp : ∀ π, stat' (permutedMatrix d' π) = 2 ^ j * stat (permutedMatrix d π)) :
    Arith.permutationTest B perms d' stat'
      = { pvalue := (Arith.permutationTest B perms d stat).pvalue
          statistic := 2 ^ j * (Arith.permutationTest B perms d stat).statistic } := by
  unfold Arith.permutationTest
  simp only [hd, hp, scale_lt]

end Dcor

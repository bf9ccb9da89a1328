/-
C90: changes of units, translations and reflections of the samples of a permutation test in `float64`.
-/
import Verif.Proofs.ScaleTests
import Verif.Proofs.FloatTests

namespace Dcor.Props

open Dcor

variable {sqrt : ℚ → ℚ} {sum : List ℚ → ℚ} {dot : List (ℚ × ℚ) → ℚ} {n p q r k : ℕ} {size : Fin k → ℕ}

/-! ### Powers of two -/

/-- C90: if the samples are multiplied by powers of two, `distance_covariance_test` returns the same p-value bit for bit and
a statistic multiplied by the product of the powers. -/
theorem C90_scale_distance_covariance_test (h : Equivariant sqrt sum dot) (i j : ℤ) (perms : List (Equiv.Perm (Fin n)))
    (x : Fin n → Fin p → ℚ) (y : Fin n → Fin q → ℚ) :
    ((binary64 sqrt sum dot).dcovTest perms (fun l c => 2 ^ i * x l c) (fun l c => 2 ^ j * y l c)).pvalue
        = ((binary64 sqrt sum dot).dcovTest perms x y).pvalue ∧
      ((binary64 sqrt sum dot).dcovTest perms (fun l c => 2 ^ i * x l c) (fun l c => 2 ^ j * y l c)).statistic
        = 2 ^ (i + j) * ((binary64 sqrt sum dot).dcovTest perms x y).statistic := by
  have ex : ∀ {p : ℕ} (i : ℤ) (x : Fin n → Fin p → ℚ), (binary64 sqrt sum dot).doubleCentered
      ((binary64 sqrt sum dot).euclidean fun l c => 2 ^ i * x l c)
      = fun k l => 2 ^ i * (binary64 sqrt sum dot).doubleCentered ((binary64 sqrt sum dot).euclidean x) k l := by
    intro p i x
    rw [← scale_doubleCentered h]
    congr 1
    funext k l
    exact scale_euclidean h i x k l
  have e := scale_permutationTest (sqrt := sqrt) (sum := sum) (dot := dot) (i + j) perms
    ((binary64 sqrt sum dot).doubleCentered ((binary64 sqrt sum dot).euclidean x))
    ((binary64 sqrt sum dot).doubleCentered ((binary64 sqrt sum dot).euclidean fun l c => 2 ^ i * x l c))
    (fun d => (binary64 sqrt sum dot).imul n ((binary64 sqrt sum dot).meanProduct d
      ((binary64 sqrt sum dot).doubleCentered ((binary64 sqrt sum dot).euclidean y))))
    (fun d => (binary64 sqrt sum dot).imul n ((binary64 sqrt sum dot).meanProduct d
      ((binary64 sqrt sum dot).doubleCentered ((binary64 sqrt sum dot).euclidean fun l c => 2 ^ j * y l c))))
    (by rw [ex, ex, scale_meanProduct h, scale_imul])
    (by
      intro π
      rw [ex, ex]
      have : permutedMatrix (fun k l => 2 ^ i * (binary64 sqrt sum dot).doubleCentered
          ((binary64 sqrt sum dot).euclidean x) k l) π
          = fun k l => 2 ^ i * permutedMatrix ((binary64 sqrt sum dot).doubleCentered
            ((binary64 sqrt sum dot).euclidean x)) π k l := rfl
      rw [this, scale_meanProduct h, scale_imul])
  unfold Arith.dcovTest
  dsimp only
  rw [e]
  exact ⟨rfl, rfl⟩

/-- C90: the same for `partial_distance_covariance_test`; the scale of `z` does not matter. -/
theorem C90_scale_partial_test (h : Equivariant sqrt sum dot) (i j m : ℤ) (perms : List (Equiv.Perm (Fin n)))
    (x : Fin n → Fin p → ℚ) (y : Fin n → Fin q → ℚ) (z : Fin n → Fin r → ℚ) :
    ((binary64 sqrt sum dot).partialTest perms (fun l c => 2 ^ i * x l c) (fun l c => 2 ^ j * y l c)
        (fun l c => 2 ^ m * z l c)).pvalue = ((binary64 sqrt sum dot).partialTest perms x y z).pvalue ∧
      ((binary64 sqrt sum dot).partialTest perms (fun l c => 2 ^ i * x l c) (fun l c => 2 ^ j * y l c)
        (fun l c => 2 ^ m * z l c)).statistic = 2 ^ (i + j) * ((binary64 sqrt sum dot).partialTest perms x y z).statistic := by
  have e := scale_permutationTest (sqrt := sqrt) (sum := sum) (dot := dot) (i + j) perms
    ((binary64 sqrt sum dot).uComplementaryProjection ((binary64 sqrt sum dot).uDistanceMatrix z)
      ((binary64 sqrt sum dot).uDistanceMatrix x))
    ((binary64 sqrt sum dot).uComplementaryProjection ((binary64 sqrt sum dot).uDistanceMatrix fun l c => 2 ^ m * z l c)
      ((binary64 sqrt sum dot).uDistanceMatrix fun l c => 2 ^ i * x l c))
    (fun d => (binary64 sqrt sum dot).imul n ((binary64 sqrt sum dot).uProduct d
      ((binary64 sqrt sum dot).uComplementaryProjection ((binary64 sqrt sum dot).uDistanceMatrix z)
        ((binary64 sqrt sum dot).uDistanceMatrix y))))
    (fun d => (binary64 sqrt sum dot).imul n ((binary64 sqrt sum dot).uProduct d
      ((binary64 sqrt sum dot).uComplementaryProjection ((binary64 sqrt sum dot).uDistanceMatrix fun l c => 2 ^ m * z l c)
        ((binary64 sqrt sum dot).uDistanceMatrix fun l c => 2 ^ j * y l c))))
    (by simp only [scale_uDistanceMatrix h, scale_complementary h, scale_uProduct h, scale_imul])
    (by
      intro π
      simp only [scale_uDistanceMatrix h, scale_complementary h]
      have : permutedMatrix (fun k l => 2 ^ i * (binary64 sqrt sum dot).uComplementaryProjection
          ((binary64 sqrt sum dot).uDistanceMatrix z) ((binary64 sqrt sum dot).uDistanceMatrix x) k l) π
          = fun k l => 2 ^ i * permutedMatrix ((binary64 sqrt sum dot).uComplementaryProjection
            ((binary64 sqrt sum dot).uDistanceMatrix z) ((binary64 sqrt sum dot).uDistanceMatrix x)) π k l := rfl
      rw [this, scale_uProduct h, scale_imul])
  unfold Arith.partialTest
  dsimp only
  rw [e]
  exact ⟨rfl, rfl⟩

/-- C90: the same for `energy_test`, where all samples have the same unit. -/
theorem C90_scale_energy_test (h : Equivariant sqrt sum dot) (j : ℤ) (s : EstStat)
    (perms : List (Equiv.Perm (Fin (∑ b, size b)))) (x : (b : Fin k) → Fin (size b) → Fin p → ℚ) :
    ((binary64 sqrt sum dot).energyTest s perms fun b l c => 2 ^ j * x b l c).pvalue
        = ((binary64 sqrt sum dot).energyTest s perms x).pvalue ∧
      ((binary64 sqrt sum dot).energyTest s perms fun b l c => 2 ^ j * x b l c).statistic
        = 2 ^ j * ((binary64 sqrt sum dot).energyTest s perms x).statistic := by
  have ed : (binary64 sqrt sum dot).cdist (Arith.pooled fun b l c => 2 ^ j * x b l c)
      (Arith.pooled fun b l c => 2 ^ j * x b l c)
      = fun a b => 2 ^ j * (binary64 sqrt sum dot).cdist (Arith.pooled x) (Arith.pooled x) a b := by
    funext a b
    exact scale_euclidean h j (Arith.pooled x) a b
  have e := scale_permutationTest (sqrt := sqrt) (sum := sum) (dot := dot) j perms
    ((binary64 sqrt sum dot).cdist (Arith.pooled x) (Arith.pooled x))
    ((binary64 sqrt sum dot).cdist (Arith.pooled fun b l c => 2 ^ j * x b l c) (Arith.pooled fun b l c => 2 ^ j * x b l c))
    ((binary64 sqrt sum dot).energyMultivariate s) ((binary64 sqrt sum dot).energyMultivariate s)
    (by rw [ed, scale_energyMultivariate h])
    (by
      intro π
      rw [ed]
      have : permutedMatrix (fun a b => 2 ^ j * (binary64 sqrt sum dot).cdist (Arith.pooled x) (Arith.pooled x) a b) π
          = fun a b => 2 ^ j * permutedMatrix ((binary64 sqrt sum dot).cdist (Arith.pooled x) (Arith.pooled x)) π a b := rfl
      rw [this, scale_energyMultivariate h])
  unfold Arith.energyTest
  rw [e]
  exact ⟨rfl, rfl⟩

/-- C90: the partial distance covariance is multiplied by the powers of `x` and `y`, and the partial distance correlation
does not change. -/
theorem C90_scale_partial_statistics (h : Equivariant sqrt sum dot) (i j m : ℤ) (x : Fin n → Fin p → ℚ) (y : Fin n → Fin q → ℚ)
    (z : Fin n → Fin r → ℚ) :
    (binary64 sqrt sum dot).partialCovariance (fun l c => 2 ^ i * x l c) (fun l c => 2 ^ j * y l c) (fun l c => 2 ^ m * z l c)
        = 2 ^ (i + j) * (binary64 sqrt sum dot).partialCovariance x y z ∧
      (binary64 sqrt sum dot).partialCorrelation (fun l c => 2 ^ i * x l c) (fun l c => 2 ^ j * y l c)
        (fun l c => 2 ^ m * z l c) = (binary64 sqrt sum dot).partialCorrelation x y z := by
  refine ⟨?_, scale_partialCorrelation h i j m x y z⟩
  unfold Arith.partialCovariance
  simp only [scale_uDistanceMatrix h, scale_complementary h, scale_uProduct h]

/-! ### Translations and reflections -/

theorem euclidean_congr {x x' : Fin n → Fin p → ℚ} (hx : ∀ i j c, |x' i c - x' j c| = |x i c - x j c|) :
    (binary64 sqrt sum dot).euclidean x' = (binary64 sqrt sum dot).euclidean x := by
  funext i j
  unfold Arith.euclidean
  congr 2
  funext c
  show round64 (round64 (x' i c - x' j c) * round64 (x' i c - x' j c))
    = round64 (round64 (x i c - x j c) * round64 (x i c - x j c))
  rw [← abs_mul_abs_self (round64 (x' i c - x' j c)), ← abs_mul_abs_self (round64 (x i c - x j c)), ← round64_abs,
    ← round64_abs, hx]

/-- C90: if the coordinates of the observations are translated or reflected and the results are exact, no bit of the results
of the tests and of the partial statistics changes. -/
theorem C90_translation (sqrt : ℚ → ℚ) (sum : List ℚ → ℚ) (dot : List (ℚ × ℚ) → ℚ) (perms : List (Equiv.Perm (Fin n)))
    {x x' : Fin n → Fin p → ℚ} {y y' : Fin n → Fin q → ℚ} {z z' : Fin n → Fin r → ℚ}
    (hx : ∀ i j c, |x' i c - x' j c| = |x i c - x j c|) (hy : ∀ i j c, |y' i c - y' j c| = |y i c - y j c|)
    (hz : ∀ i j c, |z' i c - z' j c| = |z i c - z j c|) :
    (binary64 sqrt sum dot).dcovTest perms x' y' = (binary64 sqrt sum dot).dcovTest perms x y ∧
      (binary64 sqrt sum dot).partialTest perms x' y' z' = (binary64 sqrt sum dot).partialTest perms x y z ∧
      (binary64 sqrt sum dot).partialCovariance x' y' z' = (binary64 sqrt sum dot).partialCovariance x y z ∧
      (binary64 sqrt sum dot).partialCorrelation x' y' z' = (binary64 sqrt sum dot).partialCorrelation x y z := by
  have ux : (binary64 sqrt sum dot).uDistanceMatrix x' = (binary64 sqrt sum dot).uDistanceMatrix x := by
    unfold Arith.uDistanceMatrix
    rw [euclidean_congr hx]
  have uy : (binary64 sqrt sum dot).uDistanceMatrix y' = (binary64 sqrt sum dot).uDistanceMatrix y := by
    unfold Arith.uDistanceMatrix
    rw [euclidean_congr hy]
  have uz : (binary64 sqrt sum dot).uDistanceMatrix z' = (binary64 sqrt sum dot).uDistanceMatrix z := by
    unfold Arith.uDistanceMatrix
    rw [euclidean_congr hz]
  refine ⟨?_, ?_, ?_, ?_⟩
  · unfold Arith.dcovTest
    rw [euclidean_congr hx, euclidean_congr hy]
  · unfold Arith.partialTest
    rw [ux, uy, uz]
  · unfold Arith.partialCovariance
    rw [ux, uy, uz]
  · unfold Arith.partialCorrelation
    rw [ux, uy, uz]

/-- C90: the same for `energy_test`, where all samples are translated or reflected together. -/
theorem C90_translation_energy (sqrt : ℚ → ℚ) (sum : List ℚ → ℚ) (dot : List (ℚ × ℚ) → ℚ) (s : EstStat)
    (perms : List (Equiv.Perm (Fin (∑ b, size b)))) {x x' : (b : Fin k) → Fin (size b) → Fin p → ℚ}
    (hx : ∀ b i d j c, |x' b i c - x' d j c| = |x b i c - x d j c|) :
    (binary64 sqrt sum dot).energyTest s perms x' = (binary64 sqrt sum dot).energyTest s perms x := by
  unfold Arith.energyTest
  have : (binary64 sqrt sum dot).cdist (Arith.pooled x') (Arith.pooled x')
      = (binary64 sqrt sum dot).cdist (Arith.pooled x) (Arith.pooled x) :=
    euclidean_congr (x := Arith.pooled x) (x' := Arith.pooled x') fun i j c => hx _ _ _ _ c
  rw [this]

/-! ### Cases that meet the hypotheses -/

example (perms : List (Equiv.Perm (Fin 4))) :
    ((binary64 sqrt64 seqSum64 seqDot64).dcovTest perms (fun i (_ : Fin 1) => 2 ^ (10 : ℤ) * (![0, 1, 2, 4] : Fin 4 → ℚ) i)
      (fun i (_ : Fin 1) => 2 ^ (-3 : ℤ) * (![3, 1, 2, 7] : Fin 4 → ℚ) i)).pvalue
      = ((binary64 sqrt64 seqSum64 seqDot64).dcovTest perms (fun i (_ : Fin 1) => (![0, 1, 2, 4] : Fin 4 → ℚ) i)
        (fun i (_ : Fin 1) => (![3, 1, 2, 7] : Fin 4 → ℚ) i)).pvalue :=
  (C90_scale_distance_covariance_test float64_seq.2 10 (-3) perms (fun i (_ : Fin 1) => (![0, 1, 2, 4] : Fin 4 → ℚ) i)
    (fun i (_ : Fin 1) => (![3, 1, 2, 7] : Fin 4 → ℚ) i)).1

/-- A translation by `2 ^ 40` and a reflection. -/
example (i j : Fin 4) : |((![0, 1, 2, 4] : Fin 4 → ℚ) i + 2 ^ 40) - ((![0, 1, 2, 4] : Fin 4 → ℚ) j + 2 ^ 40)|
    = |(![0, 1, 2, 4] : Fin 4 → ℚ) i - (![0, 1, 2, 4] : Fin 4 → ℚ) j| ∧
      |(3 - (![0, 1, 2, 4] : Fin 4 → ℚ) i) - (3 - (![0, 1, 2, 4] : Fin 4 → ℚ) j)|
    = |(![0, 1, 2, 4] : Fin 4 → ℚ) i - (![0, 1, 2, 4] : Fin 4 → ℚ) j| := by
  constructor
  · congr 1
    ring
  · rw [← abs_neg]
    congr 1
    ring

end Dcor.Props

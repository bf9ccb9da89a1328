/-
Model of the centred matrices, of the partial statistics and of the permutation tests with an arbitrary arithmetic.

Every operation is written in the order in which the Python code executes it, as in `Verif/Model/Rounding.lean`. The
exponent of the distances is 1 and the arrays hold `float64` numbers and have agreeing sizes. Integers of the code
(`dim ** 2`, `n * (n - 3)`, ...) are exact and are converted to `R` when they meet an array.
-/
import Verif.Model.RoundingEnergy
import Verif.Model.Hypothesis
import Mathlib.Algebra.BigOperators.Fin

namespace Dcor

namespace Arith

variable {R : Type} (A : Arith R) {n p q r : ℕ}

/-! ### Centring and products -/

/-- `double_centered`, dcor/_dcor_internals.py:254-267. The sums are computed before `out`, which may be the same array,
is changed. -/
def doubleCentered (a : Fin n → Fin n → R) : Fin n → Fin n → R :=
  let totalMean := A.idiv (A.vsum (A.axisSum a)) ((n : ℤ) ^ 2)
  let axisMean := fun i => A.idiv (A.axisSum a i) n
  fun i j => A.add (A.sub (A.sub (a i j) (axisMean j)) (axisMean i)) totalMean

/-- `u_centered`, dcor/_dcor_internals.py:330-348. -/
def uCentered (a : Fin n → Fin n → R) : Fin n → Fin n → R :=
  let totalMean := A.idiv (A.vsum (A.axisSum a)) (((n : ℤ) - 1) * ((n : ℤ) - 2))
  let axisMean := fun i => A.idiv (A.axisSum a i) ((n : ℤ) - 2)
  fun i j => if i = j then A.ofInt 0 else A.add (A.sub (A.sub (a i j) (axisMean j)) (axisMean i)) totalMean

/-- `a * b` of two matrices, in row-major order. -/
def products (a b : Fin n → Fin n → R) : List R := flatAll fun i j => A.mul (a i j) (b i j)

/-- `mean_product`, dcor/_dcor_internals.py:351-392. -/
def meanProduct (a b : Fin n → Fin n → R) : R := A.mean (A.products a b)

/-- `u_product`, dcor/_dcor_internals.py:395-460. -/
def uProduct (a b : Fin n → Fin n → R) : R := A.idiv (A.sum (A.products a b)) ((n : ℤ) * ((n : ℤ) - 3))

/-- The function returned by `u_projection(c)`, dcor/_dcor_internals.py:542-568. -/
def uProjection (c a : Fin n → Fin n → R) : Fin n → Fin n → R :=
  let denominator := A.uProduct c c
  if A.eqZero denominator then fun _ _ => A.ofInt 0
  else fun i j => A.mul (A.div (A.uProduct a c) denominator) (c i j)

/-- The function returned by `u_complementary_projection(c)`, dcor/_dcor_internals.py:638-656. -/
def uComplementaryProjection (c a : Fin n → Fin n → R) : Fin n → Fin n → R :=
  fun i j => A.sub (a i j) (A.uProjection c a i j)

/-- `_u_distance_matrix`, dcor/_dcor_internals.py:675-700, with exponent 1. -/
def uDistanceMatrix (x : Fin n → Fin p → R) : Fin n → Fin n → R := A.uCentered (A.euclidean x)

/-! ### Partial statistics -/

/-- `partial_distance_covariance`, dcor/_partial_dcor.py:81-87. -/
def partialCovariance (x : Fin n → Fin p → R) (y : Fin n → Fin q → R) (z : Fin n → Fin r → R) : R :=
  let c := A.uDistanceMatrix z
  A.uProduct (A.uComplementaryProjection c (A.uDistanceMatrix x)) (A.uComplementaryProjection c (A.uDistanceMatrix y))

/-- `np.clip(r, -1, 1)`; NaN stays NaN. -/
def clip1 (a : R) : R :=
  if A.lt a (A.ofInt (-1)) then A.ofInt (-1) else if A.lt (A.ofInt 1) a then A.ofInt 1 else a

/-- `np.clip(num / _sqrt(denom_sqr) if denom_sqr != 0 else denom_sqr, -1, 1)`, dcor/_partial_dcor.py:160-170. -/
def clippedCorrelation (num denomSqr : R) : R :=
  A.clip1 (if A.eqZero denomSqr then denomSqr else A.div num (A.sqrtClip denomSqr))

/-- Last two statements of `partial_distance_correlation`, dcor/_partial_dcor.py:172-174. `r ** 2` is `r * r`. -/
def partialFromCorrelations (rxy rxz ryz : R) : R :=
  let denom := A.mul (A.sqrtClip (A.sub (A.ofInt 1) (A.mul rxz rxz))) (A.sqrtClip (A.sub (A.ofInt 1) (A.mul ryz ryz)))
  if A.eqZero denom then denom else A.div (A.sub rxy (A.mul rxz ryz)) denom

/-- `partial_distance_correlation`, dcor/_partial_dcor.py:149-174. -/
def partialCorrelation (x : Fin n → Fin p → R) (y : Fin n → Fin q → R) (z : Fin n → Fin r → R) : R :=
  let a := A.uDistanceMatrix x
  let b := A.uDistanceMatrix y
  let c := A.uDistanceMatrix z
  let aa := A.uProduct a a
  let bb := A.uProduct b b
  let cc := A.uProduct c c
  A.partialFromCorrelations (A.clippedCorrelation (A.uProduct a b) (A.mul aa bb))
    (A.clippedCorrelation (A.uProduct a c) (A.mul aa cc)) (A.clippedCorrelation (A.uProduct b c) (A.mul bb cc))

/-! ### Permutation tests -/

/-- Result of a test. -/
structure TestResult (R : Type) where
  pvalue : R
  statistic : R

/-- `_permutation_test_with_sym_matrix`, dcor/_hypothesis.py:95-137, for the permutations that were drawn: the number of
statistics above the observed one is a sum of zeros and ones. `num_resamples` is the number of permutations; that they
are drawn one after the other and that parallel execution does not matter is in `Verif/Model/Hypothesis.lean`. -/
def permutationTest (perms : List (Equiv.Perm (Fin n))) (m : Fin n → Fin n → R) (stat : (Fin n → Fin n → R) → R) :
    TestResult R :=
  let statistic := stat m
  let extreme := perms.map fun π => if A.lt statistic (stat (permutedMatrix m π)) then A.ofInt 1 else A.ofInt 0
  { pvalue := A.idiv (A.add (A.sum extreme) (A.ofInt 1)) ((perms.length : ℤ) + 1), statistic := statistic }

/-- `distance_covariance_test`, dcor/independence.py:103-136. -/
def dcovTest (perms : List (Equiv.Perm (Fin n))) (x : Fin n → Fin p → R) (y : Fin n → Fin q → R) : TestResult R :=
  let uy := A.doubleCentered (A.euclidean y)
  A.permutationTest perms (A.doubleCentered (A.euclidean x)) fun d => A.imul n (A.meanProduct d uy)

/-- `partial_distance_covariance_test`, dcor/independence.py:207-236. -/
def partialTest (perms : List (Equiv.Perm (Fin n))) (x : Fin n → Fin p → R) (y : Fin n → Fin q → R)
    (z : Fin n → Fin r → R) : TestResult R :=
  let c := A.uDistanceMatrix z
  let pyz := A.uComplementaryProjection c (A.uDistanceMatrix y)
  A.permutationTest perms (A.uComplementaryProjection c (A.uDistanceMatrix x)) fun d => A.imul n (A.uProduct d pyz)

/-! ### The energy test with several samples -/

variable {k : ℕ} {size : Fin k → ℕ}

/-- The block `distance[slice_i, slice_j]`, dcor/homogeneity.py:140-148: rows of sample `b`, columns of sample `c`. Index
`finSigmaFinEquiv ⟨b, i⟩` is the sum of the sizes of the samples before `b`, plus `i`. -/
def block (d : Fin (∑ b, size b) → Fin (∑ b, size b) → R) (b c : Fin k) : Fin (size b) → Fin (size c) → R :=
  fun i j => d (finSigmaFinEquiv ⟨b, i⟩) (finSigmaFinEquiv ⟨c, j⟩)

/-- `concat(samples)`, dcor/homogeneity.py:250-255. -/
def pooled (x : (b : Fin k) → Fin (size b) → Fin p → R) : Fin (∑ b, size b) → Fin p → R :=
  fun i => x (finSigmaFinEquiv.symm i).1 (finSigmaFinEquiv.symm i).2

/-- `_energy_test_statistic_from_distance_matrices` of two blocks, dcor/homogeneity.py:36-54 and 150-158. -/
def pairEnergy (s : EstStat) (d : Fin (∑ b, size b) → Fin (∑ b, size b) → R) (b c : Fin k) : R :=
  A.mul (A.div (A.ofInt ((size b : ℤ) * size c)) (A.ofInt ((size b : ℤ) + size c)))
    (A.energyFromMatrices s (block d b b) (block d c c) (block d b c))

/-- The statistics of the pairs of samples, in the order of the loops of dcor/homogeneity.py:138-139. -/
def pairEnergies (s : EstStat) (d : Fin (∑ b, size b) → Fin (∑ b, size b) → R) : List R :=
  (List.finRange k).flatMap fun (b : Fin k) =>
    ((List.finRange k).filter fun (c : Fin k) => decide ((b : ℕ) + 1 ≤ (c : ℕ))).map (A.pairEnergy s d b)

/-- `_energy_test_statistic_multivariate_from_distance_matrix`, dcor/homogeneity.py:128-166. Without a pair of samples the
code raises an exception (see `energyMultivariate`), which is not modelled here. -/
def energyMultivariate (s : EstStat) (d : Fin (∑ b, size b) → Fin (∑ b, size b) → R) : R :=
  match A.pairEnergies s d with
  | [] => A.ofInt 0
  | e :: l => l.foldl A.add e

/-- `energy_test`, dcor/homogeneity.py:243-287, with at least two samples, exponent 1 and the default average. -/
def energyTest (s : EstStat) (perms : List (Equiv.Perm (Fin (∑ b, size b)))) (x : (b : Fin k) → Fin (size b) → Fin p → R) :
    TestResult R :=
  A.permutationTest perms (A.cdist (pooled x) (pooled x)) (A.energyMultivariate s)

end Arith

end Dcor

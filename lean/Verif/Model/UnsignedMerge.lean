/-
The mergesort method, not compiled, on NumPy arrays of `uint8`, `uint16` or `uint32`.

As in `Verif/Model/UnsignedInt.lean`, sums of NumPy have dtype `uint64`, and `uint64` and `int64` numbers together give `float64`,
whose rounding is not modelled.
-/
import Verif.Model.UnsignedInt

namespace Dcor

variable {n w : ℕ}

/-- `_compute_aijbij_term`, dcor/_fast_dcov_mergesort.py:142-174, on sorted unsigned integers of `w` bits. `weights`,
`weights_cumsum`, `weight_sums` and the matrix products of lines 159-161 and 170 have the dtype of the samples; line 170 is
`(n * x) @ y`, which is an error if `n` is not a value of the dtype. `np.sum` (lines 162, 168-170) gives `uint64`, and so does the
result. The cumulative sums (line 71) are computed as `uint64` and then stored, here they are added modulo `2 ^ w`, which is the
same. -/
def aijbijUnsigned (x y : Fin n → BitVec w) : Except PyErr (BitVec 64) := do
  let weights : Fin n → Fin 4 → BitVec w := fun i => ![1, y i, x i, x i * y i]
  let r ← computeWeightSums (fun a b : BitVec w => decide (a.toNat ≥ b.toNat)) y weights
  let ws := r.2.1
  let term1 : BitVec w := ∑ i, x i * y i * ws i 0
  let term2 : BitVec w := ∑ i, x i * ws i 1
  let term3 : BitVec w := ∑ i, y i * ws i 2
  let term4 : BitVec 64 := ∑ i, (ws i 3).zeroExtend 64
  let sumsTerm : BitVec 64 := (term1 - term2 - term3).zeroExtend 64 + term4
  let sumX : BitVec 64 := ∑ i, (x i).zeroExtend 64
  let sumY : BitVec 64 := ∑ i, (y i).zeroExtend 64
  if ¬ (n < 2 ^ w) then throw PyErr.overflowError
  let nxy : BitVec w := ∑ i, (n : BitVec w) * x i * y i
  let covTerm : BitVec 64 := nxy.zeroExtend 64
    - (∑ i, (sumX * (y i).zeroExtend 64 + sumY * (x i).zeroExtend 64)) + sumX * sumY
  pure (4 * sumsTerm - 2 * covTerm)

/-- `_compute_row_sums`, dcor/_fast_dcov_mergesort.py:190-203: `term_1` is an `int64` array, `sums` and `term_2` are `uint64` arrays
(so that the subtraction wraps around), and their sum is a `float64` array. -/
noncomputable def rowSumsUnsigned (x : Fin n → BitVec w) : Except PyErr (Fin n → ℝ) :=
  if h : 0 < n then
    let sums := cumsum fun i => (x i).zeroExtend 64
    let last : BitVec 64 := sums ⟨n - 1, by omega⟩
    .ok fun i =>
      (((2 * (((i : ℕ) + 1 : ℕ) : BitVec 64) - (n : BitVec 64)) * (x i).zeroExtend 64).toInt : ℝ) + ((last - 2 * sums i).toNat : ℝ)
  else .error .indexError

/-- `_distance_covariance_sqr_terms_mergesort_impl`, dcor/_fast_dcov_mergesort.py:215-264, on two arrays of unsigned integers of `w`
bits, without the variance terms. -/
noncomputable def mergesortTermsUnsigned (argsort : (Fin n → BitVec w) → Equiv.Perm (Fin n)) (x y : Fin n → BitVec w) :
    Except PyErr (CoreTerms ℝ n) := do
  let orderedIndexes := argsort x
  let xs := fun i => x (orderedIndexes i)
  let ys := fun i => y (orderedIndexes i)
  let aijbij ← aijbijUnsigned xs ys
  let aI ← rowSumsUnsigned xs
  let orderedIndexesY := argsort ys
  let bPerm ← rowSumsUnsigned fun i => ys (orderedIndexesY i)
  let bI := scatter (fun _ => 0) orderedIndexesY bPerm
  pure { meanProd := (aijbij.toNat : ℝ), aAxis := aI, aTotal := ∑ i, aI i, bAxis := bI, bTotal := ∑ i, bI i }

/-- `_DcovAlgorithmInternals.dcov_sqr`, dcor/_dcor.py:217-238, of the mergesort method on unsigned integers of `w` bits. -/
noncomputable def dcovSqrUnsignedMerge (argsort : (Fin n → BitVec w) → Equiv.Perm (Fin n)) (x y : Fin n → BitVec w)
    (biasCorrected : Bool) : Except PyErr (FP ℝ) := do
  let c ← mergesortTermsUnsigned argsort x y
  dcovFromTerms FastMethod.mergesort.meanKind .numpy .numpy c.meanProd c.aAxis c.aTotal c.bAxis c.bTotal biasCorrected

/-- `_DcovAlgorithmInternals.stats_sqr`, dcor/_dcor.py:240-313, of the mergesort method on unsigned integers of `w` bits. `np.var`
converts to floats (dcor/_fast_dcov_mergesort.py:260-261). -/
noncomputable def statsSqrUnsignedMerge (argsort : (Fin n → BitVec w) → Equiv.Perm (Fin n)) (x y : Fin n → BitVec w)
    (biasCorrected : Bool) : Except PyErr Stats := do
  let c ← mergesortTermsUnsigned argsort x y
  let va : ℝ := varTerm fun i => ((x i).toNat : ℝ)
  let vb : ℝ := varTerm fun i => ((y i).toNat : ℝ)
  let cov ← dcovFromTerms FastMethod.mergesort.meanKind .numpy .numpy c.meanProd c.aAxis c.aTotal c.bAxis c.bTotal biasCorrected
  let vx ← dcovFromTerms .numpy .numpy .numpy va c.aAxis c.aTotal c.aAxis c.aTotal biasCorrected
  let vy ← dcovFromTerms .numpy .numpy .numpy vb c.bAxis c.bTotal c.bAxis c.bTotal biasCorrected
  let denominator := sqrtClip (FP.abs (vx * vy))
  let corr := if denominator.IsZero then .fin 0 else cov / denominator
  pure ⟨cov, corr, vx, vy⟩

/-- `distance_covariance`, dcor/_dcor.py:611-620, of the mergesort method on unsigned integers: the root of the square. -/
noncomputable def dcovUnsignedMerge (argsort : (Fin n → BitVec w) → Equiv.Perm (Fin n)) (x y : Fin n → BitVec w) :
    Except PyErr (FP ℝ) := do
  let v ← dcovSqrUnsignedMerge argsort x y false
  pure (sqrtClip v)

/-- `distance_correlation`, dcor/_dcor.py:1032-1041, of the mergesort method on unsigned integers: the root of the square. -/
noncomputable def dcorUnsignedMerge (argsort : (Fin n → BitVec w) → Equiv.Perm (Fin n)) (x y : Fin n → BitVec w) :
    Except PyErr (FP ℝ) := do
  let s ← statsSqrUnsignedMerge argsort x y false
  pure (sqrtClip s.correlationXY)

end Dcor

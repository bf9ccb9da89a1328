/-
The AVL method, not compiled, on NumPy arrays of `uint8`, `uint16` or `uint32`.

As for the signed integers of `Verif/Model/NarrowInt.lean`, the weights, the cumulative weights and the partial sums have the
dtype of the samples. The sums of NumPy have dtype `uint64`; `uint64` and `int64` numbers together give `float64`, so that the
row sums and totals are floating point numbers. Their rounding is not modelled: they are exact below `2 ** 53`.
-/
import Verif.Model.NarrowInt

namespace Dcor

variable {n w : ℕ}

/-- `uint8`, `uint16` and `uint32`: additions, products and assignments wrap around, and the conversion is to `uint64`. -/
def NarrowType.unsigned (w : ℕ) : NarrowType (BitVec w) where
  zero := 0
  one := 1
  add := (· + ·)
  mul := (· * ·)
  store := BitVec.truncate w
  load := BitVec.zeroExtend 64
  scale := fun k a => BitVec.zeroExtend 64 ((k : BitVec w) * a)

/-- `beta_x`, dcor/_fast_dcov_avl.py:361, as `uint64`. -/
def betaUnsigned (argsort : Equiv.Perm (Fin n)) (x : Fin n → BitVec w) (i : Fin n) : BitVec 64 :=
  let vx := fun i => x (argsort i)
  let ix := scatter (fun i : Fin n => ⟨0, i.pos⟩) argsort id
  cumsum (fun i => (vx i).zeroExtend 64) (ix i) - (vx (ix i)).zeroExtend 64

/-- `a_i_dot`, dcor/_fast_dcov_avl.py:365-369: the sum of a `uint64` number and an `int64` array is a `float64` array, from
which a `uint64` array is subtracted. -/
noncomputable def axisUnsigned (argsort : Equiv.Perm (Fin n)) (x : Fin n → BitVec w) (i : Fin n) : ℝ :=
  let ix := scatter (fun i : Fin n => ⟨0, i.pos⟩) argsort id
  let xDot : BitVec 64 := ∑ k, (x k).zeroExtend 64
  let alpha : BitVec 64 := ((ix i : ℕ) : BitVec 64)
  (xDot.toNat : ℝ) + (((2 * alpha - (n : BitVec 64)) * (x i).zeroExtend 64).toInt : ℝ)
    - ((2 * betaUnsigned argsort x i).toNat : ℝ)

/-- `a_dot_dot`, dcor/_fast_dcov_avl.py:373: the difference of an `int64` and a `uint64` number, which is a `float64`. -/
noncomputable def totalUnsigned (argsort : Equiv.Perm (Fin n)) (x : Fin n → BitVec w) : ℝ :=
  let ix := scatter (fun i : Fin n => ⟨0, i.pos⟩) argsort id
  ((2 * ∑ i, ((ix i : ℕ) : BitVec 64) * (x i).zeroExtend 64).toInt : ℝ)
    - ((2 * ∑ i, betaUnsigned argsort x i).toNat : ℝ)

/-- `_distance_covariance_sqr_terms_avl_impl`, dcor/_fast_dcov_avl.py:314-414, on two arrays of unsigned integers of `w` bits,
without the variance terms. The partial sums and `aijbij` are computed modulo `2 ^ 64` as for the other dtypes, and `aijbij` is
a `uint64` number. -/
noncomputable def unsignedTerms (argsort : (Fin n → BitVec w) → Equiv.Perm (Fin n)) (x y : Fin n → BitVec w) :
    Except PyErr (CoreTerms ℝ n) := do
  let t ← avlTermsNarrow (.unsigned w) argsort x y
  pure { meanProd := (t.meanProd.toNat : ℝ)
         aAxis := axisUnsigned (argsort x) x
         aTotal := totalUnsigned (argsort x) x
         bAxis := axisUnsigned (argsort y) y
         bTotal := totalUnsigned (argsort y) y }

/-- `_DcovAlgorithmInternals.dcov_sqr`, dcor/_dcor.py:217-238, of the AVL method on unsigned integers of `w` bits. -/
noncomputable def dcovSqrUnsigned (argsort : (Fin n → BitVec w) → Equiv.Perm (Fin n)) (x y : Fin n → BitVec w)
    (biasCorrected : Bool) : Except PyErr (FP ℝ) := do
  let c ← unsignedTerms argsort x y
  dcovFromTerms FastMethod.avl.meanKind .numpy .numpy c.meanProd c.aAxis c.aTotal c.bAxis c.bTotal biasCorrected

/-- `_DcovAlgorithmInternals.stats_sqr`, dcor/_dcor.py:240-313, of the AVL method on unsigned integers of `w` bits. `np.var`
converts to floats (dcor/_fast_dcov_avl.py:410-411). -/
noncomputable def statsSqrUnsigned (argsort : (Fin n → BitVec w) → Equiv.Perm (Fin n)) (x y : Fin n → BitVec w)
    (biasCorrected : Bool) : Except PyErr Stats := do
  let c ← unsignedTerms argsort x y
  let va : ℝ := varTerm fun i => ((x i).toNat : ℝ)
  let vb : ℝ := varTerm fun i => ((y i).toNat : ℝ)
  let cov ← dcovFromTerms FastMethod.avl.meanKind .numpy .numpy c.meanProd c.aAxis c.aTotal c.bAxis c.bTotal biasCorrected
  let vx ← dcovFromTerms .numpy .numpy .numpy va c.aAxis c.aTotal c.aAxis c.aTotal biasCorrected
  let vy ← dcovFromTerms .numpy .numpy .numpy vb c.bAxis c.bTotal c.bAxis c.bTotal biasCorrected
  let denominator := sqrtClip (FP.abs (vx * vy))
  let corr := if denominator.IsZero then .fin 0 else cov / denominator
  pure ⟨cov, corr, vx, vy⟩

end Dcor

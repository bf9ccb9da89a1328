/-
The mergesort method, not compiled, on NumPy arrays of dtype `float16`, with overflow and underflow.

The compiled version only accepts `float64` arrays, so this is the version that runs for such samples
(dcor/_fast_dcov_mergesort.py:274-293). The conventions are those of `Verif/Model/Float16.lean`.
-/
import Verif.Model.Float16
import Verif.Model.Float32Merge

namespace Dcor

namespace F16

open F64

/-- Product of two `float16` numbers in `float32`, which is exact: it has at most 22 bits. -/
def mul32 : F64 → F64 → F64
  | fin a, fin b => fin (a * b)
  | a, b => F64.mul a b

/-- What is assumed of `@` for `float16` vectors: NumPy multiplies and adds in `float32`, in some order, and converts the result. -/
def IsDot (dot : List (F64 × F64) → F64) : Prop := ∀ l, ∃ r, Acc (l.map fun p => mul32 p.1 p.2) r ∧ dot l = cast r

/-- Scalar product from left to right. -/
def dotSeq (l : List (F64 × F64)) : F64 := sumSeq (l.map fun p => mul32 p.1 p.2)

end F16

/-- `float16` arithmetic, given the ways in which vectors are summed and multiplied. Square roots are not used with `float16`
numbers. -/
def ieee16m (sum : List F64 → F64) (dot : List (F64 × F64) → F64) : Arith F64 :=
  { ieee16 sum with
    dot := dot
    sqrt := fun a => match a with
      | .fin q => F16.round (Int.sqrt q.num)
      | a => a }

namespace Arith

variable (S D : Arith F64) {n : ℕ}

/-- `_DcovAlgorithmInternals.stats_sqr`, dcor/_dcor.py:241-313, of the mergesort method on `float16` arrays. The mean of the products
is a Python `float` (dcor/_fast_dcov_mergesort.py:174), so that the covariance is double precision. `np.var` gets the arrays sorted by
`x` (dcor/_fast_dcov_mergesort.py:238-240 and 260-261). -/
def mergesortStatsHalf (biasCorrected : Bool) (ge : F64 → F64 → Bool) (argsort : (Fin n → F64) → Equiv.Perm (Fin n))
    (x y : Fin n → F64) : Except PyErr (StatsSqr F64) := do
  let t ← mergesortTermsSingle S D ge argsort x y
  let cov := D.covFromTerms biasCorrected t
  let varX := fromTermsSingle S D biasCorrected (varTermHalf S D fun i => x (argsort x i)) t.aAxis t.aTotal t.aAxis t.aTotal
  let varY := fromTermsSingle S D biasCorrected (varTermHalf S D fun i => y (argsort x i)) t.bAxis t.bTotal t.bAxis t.bTotal
  let denominator := D.sqrtClip (D.abs (D.mul varX varY))
  let corr := if D.eqZero denominator then D.ofInt 0 else D.div cov denominator
  pure { cov := cov, corr := corr, varX := varX, varY := varY }

end Arith

end Dcor

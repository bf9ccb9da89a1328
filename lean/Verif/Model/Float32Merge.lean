/-
The mergesort method, not compiled, on NumPy arrays of dtype `float32`.

The compiled version only accepts `float64` arrays, so this is the version that runs for such samples
(dcor/_fast_dcov_mergesort.py:274-293). The conventions are those of `Verif/Model/Float32.lean`.
-/
import Verif.Model.Float32

namespace Dcor

/-- `r` is a scalar product in `float32`, in some order (see `DotsTo`). -/
inductive DotsTo32 : List (ℚ × ℚ) → ℚ → Prop
  | nil : DotsTo32 [] 0
  | single (a b : ℚ) : DotsTo32 [(a, b)] (round32 (a * b))
  | fma (a b : ℚ) {l : List (ℚ × ℚ)} {c : ℚ} (hl : l ≠ []) : DotsTo32 l c → DotsTo32 ((a, b) :: l) (round32 (a * b + c))
  | add {l l' : List (ℚ × ℚ)} {a b : ℚ} (hl : l ≠ []) (hl' : l' ≠ []) :
      DotsTo32 l a → DotsTo32 l' b → DotsTo32 (l ++ l') (round32 (a + b))
  | perm {l l' : List (ℚ × ℚ)} {a : ℚ} : DotsTo32 l a → l.Perm l' → DotsTo32 l' a

/-- `float32` arithmetic on finite numbers, given the ways in which vectors are summed and multiplied. The square root is not
used by the functions below. -/
def binary32m (sum : List ℚ → ℚ) (dot : List (ℚ × ℚ) → ℚ) : Arith ℚ :=
  { binary32 sum with
    dot := dot
    sqrt := fun q => round32 (Int.sqrt q.num) }

/-- Scalar product in `float32` from left to right, with rounded products. -/
def seqDot32 (l : List (ℚ × ℚ)) : ℚ := seqSum32 (l.map fun p => round32 (p.1 * p.2))

namespace Arith

variable {R : Type} (S D : Arith R) {n : ℕ}

/-- `_compute_row_sums`, dcor/_fast_dcov_mergesort.py:190-203, on a sorted single precision array: `term_1` is double precision,
because `np.arange` has dtype `int64`; `sums` and `term_2` are single precision. -/
def rowSumsSingle (x : Fin n → R) : Except PyErr (Fin n → R) :=
  if h : 0 < n then
    let sums := S.cumsum x
    let last := sums ⟨n - 1, by omega⟩
    .ok (fun i => D.add (D.imul (2 * (((i : ℕ) + 1 : ℕ) : ℤ) - n) (x i)) (S.sub last (S.imul 2 (sums i))))
  else .error .indexError

/-- `_distance_covariance_sqr_terms_mergesort_impl`, dcor/_fast_dcov_mergesort.py:215-264, without the variance terms, on single
precision arrays. `_compute_aijbij_term` (142-174) is single precision, and its result becomes a Python `float` (line 174). The row
sums are double precision. -/
def mergesortTermsSingle (ge : R → R → Bool) (argsort : (Fin n → R) → Equiv.Perm (Fin n)) (x y : Fin n → R) :
    Except PyErr (CoreTerms R n) := do
  let orderedIndexes := argsort x
  let xs := fun i => x (orderedIndexes i)
  let ys := fun i => y (orderedIndexes i)
  let aijbij ← S.computeAijbijTerm ge xs ys
  let aI ← rowSumsSingle S D xs
  let orderedIndexesY := argsort ys
  let bPerm ← rowSumsSingle S D (fun i => ys (orderedIndexesY i))
  let bI := scatter (fun _ => D.ofInt 0) orderedIndexesY bPerm
  pure { meanProd := aijbij, aAxis := aI, aTotal := D.vsum aI, bAxis := bI, bTotal := D.vsum bI }

/-- `_DcovAlgorithmInternals.stats_sqr`, dcor/_dcor.py:241-313, of the mergesort method on single precision arrays. The mean of the
products is a Python `float`, so that the covariance is double precision. `np.var` is single precision. -/
def mergesortStatsSingle (biasCorrected : Bool) (ge : R → R → Bool) (argsort : (Fin n → R) → Equiv.Perm (Fin n))
    (x y : Fin n → R) : Except PyErr (StatsSqr R) := do
  let t ← mergesortTermsSingle S D ge argsort x y
  let cov := D.covFromTerms biasCorrected t
  let varX := fromTermsSingle S D biasCorrected (S.varTerm x) t.aAxis t.aTotal t.aAxis t.aTotal
  let varY := fromTermsSingle S D biasCorrected (S.varTerm y) t.bAxis t.bTotal t.bAxis t.bTotal
  let denominator := D.sqrtClip (D.abs (D.mul varX varY))
  let corr := if D.eqZero denominator then D.ofInt 0 else D.div cov denominator
  pure { cov := cov, corr := corr, varX := varX, varY := varY }

end Arith

end Dcor

/-
The fast methods, not compiled, on NumPy arrays of `int8`, `int16`, `int32` or `bool`.

The compiled versions only accept floating point arrays, so these are the versions that run for such
samples (dcor/_fast_dcov_avl.py:543-560). Sums and cumulative sums of these arrays have dtype `int64`,
but the arrays that hold the weights, the cumulative weights and the partial sums have the dtype of the
samples, and the results are cast to it when they are stored. NumPy 2 promotion rules are assumed: a
Python integer takes the dtype of the array it is multiplied with.
-/
import Verif.Model.IntWrap

namespace Dcor

variable {T : Type} {n w : ℕ}

/-- A dtype of integers that are shorter than 64 bits. -/
structure NarrowType (T : Type) where
  /-- `0` and `1` of the dtype (`zeros_like`, `ones_like`). -/
  zero : T
  one : T
  /-- `a + b` and `a * b` of two arrays of the dtype. -/
  add : T → T → T
  mul : T → T → T
  /-- Assignment of an `int64` value to an element of an array of the dtype. -/
  store : BitVec 64 → T
  /-- Conversion to `int64`, when the value is added up or combined with `int64` values. -/
  load : T → BitVec 64
  /-- `k * a` with a Python integer `k`, converted to `int64` by the expression around it. -/
  scale : ℕ → T → BitVec 64

/-- `int8`, `int16` and `int32`: additions, products and assignments wrap around. -/
def NarrowType.signed (w : ℕ) : NarrowType (BitVec w) where
  zero := 0
  one := 1
  add := (· + ·)
  mul := (· * ·)
  store := BitVec.truncate w
  load := BitVec.signExtend 64
  scale := fun k a => BitVec.signExtend 64 ((k : BitVec w) * a)

/-- `bool`: the sum is the disjunction, the product the conjunction, every number other than 0 is stored
as `True`, and the product with a Python integer is an `int64`. -/
def NarrowType.bool : NarrowType Bool where
  zero := false
  one := true
  add := or
  mul := and
  store := fun v => v != 0
  load := fun b => if b then 1 else 0
  scale := fun k b => (k : BitVec 64) * if b then 1 else 0

variable (A : NarrowType T)

/-- Body of the loop of `_dyad_update`, dcor/_fast_dcov_avl.py:78-85: `np_sum` adds the elements of `s`
as `int64` numbers, and the result is stored in `gamma`. -/
def dyadStepNarrow {sLen lMax : ℕ} (y : Fin n → ℤ) (c : Fin n → T) (ps : Fin lMax → ℤ)
    (st : (Fin n → T) × (Fin sLen → T)) (i : Fin n) :
    Except PyErr ((Fin n → T) × (Fin sLen → T)) := do
  let vals ← ((List.finRange lMax).filter (fun l : Fin lMax => validPosition (y i) l)).mapM
    (fun l => rd st.2 (positions3b ps (y i) l))
  let g := Function.update st.1 i (A.store (vals.map A.load).sum)
  let s ← @fancyAdd T ⟨A.add⟩ _ _ st.2 (positions3a ps (y i)) (c i)
  pure (g, s)

/-- `_dyad_update`, dcor/_fast_dcov_avl.py:43-87; `s` and `gamma` have the dtype of the samples
(lines 261 and 267). -/
def dyadUpdateNarrow (sLen : ℕ) (y : Fin n → ℤ) (c gamma : Fin n → T) (lMax : ℕ)
    (ps : Fin lMax → ℤ) : Except PyErr (Fin n → T) := do
  let s0 : Fin sLen → T := fun _ => A.zero
  let r ← (List.finRange n).foldlM (dyadStepNarrow A y c ps) (gamma, s0)
  pure r.1

/-- `_partial_sum_2d`, dcor/_fast_dcov_avl.py:154-175. The weights `c` determine `sx_c`, `sy_c` and
`c_sum` (lines 249-255), which are computed here: the first two are stored with the dtype of the samples,
the third is an `int64`. `c_sum - c` (line 174) is an `int64` array, so the rest of the expression is
computed with `int64` numbers, except the products. -/
def partialSum2dNarrow (argsortYReord : Equiv.Perm (Fin n)) (y : Fin n → ℤ) (c : Fin n → T)
    (ix iy : Fin n → Fin n) (lMax : ℕ) : Except PyErr (Fin n → BitVec 64) := do
  let cReord : Fin n → T := fun k => c (argsortYReord k)
  let sxc : Fin n → T := fun k => A.store (cumsum (fun j => A.load (c j)) k - A.load (c k))
  let syc : Fin n → T := fun k =>
    A.store (cumsum (fun j => A.load (cReord j)) k - A.load (cReord k))
  let cSum : BitVec 64 := ∑ k, A.load (c k)
  let g ← dyadUpdateNarrow A (2 ^ (lMax + 1)) y c (fun _ => A.zero) lMax (posSums lMax)
  let g := fun i => cSum - A.load (c i) - A.scale 2 (syc (iy i)) - A.scale 2 (sxc i) + A.scale 4 (g i)
  pure (fun i => g (ix i))

/-- `_distance_covariance_sqr_terms_avl_impl`, dcor/_fast_dcov_avl.py:314-414, with `_get_impl_args`
(lines 202-285), on two arrays of the dtype, without the variance terms. The index arrays are `int64`,
so everything that is multiplied by them is. -/
def avlTermsNarrow (argsort : (Fin n → T) → Equiv.Perm (Fin n)) (x y : Fin n → T) :
    Except PyErr (CoreTerms (BitVec 64) n) := do
  if ¬ (n > 3) then throw PyErr.assertionError
  let argsortX := argsort x
  let vx := fun i => x (argsortX i)
  let ix : Fin n → Fin n := scatter (fun i => ⟨0, i.pos⟩) argsortX id
  let argsortY := argsort y
  let vy := fun i => y (argsortY i)
  let iy : Fin n → Fin n := scatter (fun i => ⟨0, i.pos⟩) argsortY id
  let yReord := fun i => y (argsortX i)
  let xTimesYReord := fun i => A.mul (x (argsortX i)) (y (argsortX i))
  let argsortYReord := argsort yReord
  let iyReord : Fin n → Fin n := scatter (fun i => ⟨0, i.pos⟩) argsortYReord id
  let lMax := Nat.clog 2 n
  -- Step 2
  let sx := cumsum fun i => A.load (vx i)
  let sy := cumsum fun i => A.load (vy i)
  -- Step 3
  let alphaX : Fin n → BitVec 64 := fun i => ((ix i : ℕ) : BitVec 64)
  let alphaY : Fin n → BitVec 64 := fun i => ((iy i : ℕ) : BitVec 64)
  let betaX := fun i => sx (ix i) - A.load (vx (ix i))
  let betaY := fun i => sy (iy i) - A.load (vy (iy i))
  -- Step 4
  let xDot := ∑ i, A.load (x i)
  let yDot := ∑ i, A.load (y i)
  -- Step 5
  let aiDot := fun i => xDot + (2 * alphaX i - (n : BitVec 64)) * A.load (x i) - 2 * betaX i
  let biDot := fun i => yDot + (2 * alphaY i - (n : BitVec 64)) * A.load (y i) - 2 * betaY i
  -- Step 6
  let aDotDot := 2 * (∑ i, alphaX i * A.load (x i)) - 2 * ∑ i, betaX i
  let bDotDot := 2 * (∑ i, alphaY i * A.load (y i)) - 2 * ∑ i, betaY i
  -- Step 7
  let newY : Fin n → ℤ := fun i => ((iyReord i : ℕ) : ℤ) + 1
  let part := fun c => partialSum2dNarrow A argsortYReord newY c ix iyReord lMax
  let gamma1 ← part fun _ => A.one
  let gammaX ← part vx
  let gammaY ← part yReord
  let gammaXY ← part xTimesYReord
  -- Step 8: `x * y` has the dtype of the samples, the rest is `int64`
  let aijbij := ∑ i, (A.load (A.mul (x i) (y i)) * gamma1 i + gammaXY i - A.load (x i) * gammaY i
    - A.load (y i) * gammaX i)
  pure { meanProd := aijbij, aAxis := aiDot, aTotal := aDotDot, bAxis := biDot, bTotal := bDotDot }

/-- `_compute_aijbij_term`, dcor/_fast_dcov_mergesort.py:142-174, on sorted signed integers of `w` bits.
`weights`, `weights_cumsum`, `weight_sums` and the matrix products of lines 157-159 and 168 have the
dtype of the samples; line 168 is `(n * x) @ y`, which is an error if `n` is not a value of the dtype.
`np.sum` (lines 160, 166-168) gives `int64`. The cumulative sums (line 71) are computed as `int64` and
then stored, here they are added modulo `2 ^ w`, which is the same (`store_sum`). -/
def aijbijNarrow (x y : Fin n → BitVec w) : Except PyErr (BitVec 64) := do
  let weights : Fin n → Fin 4 → BitVec w := fun i => ![1, y i, x i, x i * y i]
  let r ← computeWeightSums (fun a b : BitVec w => decide (a.toInt ≥ b.toInt)) y weights
  let ws := r.2.1
  let term1 : BitVec w := ∑ i, x i * y i * ws i 0
  let term2 : BitVec w := ∑ i, x i * ws i 1
  let term3 : BitVec w := ∑ i, y i * ws i 2
  let term4 : BitVec 64 := ∑ i, (ws i 3).signExtend 64
  let sumsTerm : BitVec 64 := (term1 - term2 - term3).signExtend 64 + term4
  let sumX : BitVec 64 := ∑ i, (x i).signExtend 64
  let sumY : BitVec 64 := ∑ i, (y i).signExtend 64
  if ¬ (n < 2 ^ (w - 1)) then throw PyErr.overflowError
  let nxy : BitVec w := ∑ i, (n : BitVec w) * x i * y i
  let covTerm : BitVec 64 := nxy.signExtend 64
    - (∑ i, (sumX * (y i).signExtend 64 + sumY * (x i).signExtend 64)) + sumX * sumY
  pure (4 * sumsTerm - 2 * covTerm)

/-- `_distance_covariance_sqr_terms_mergesort_impl`, dcor/_fast_dcov_mergesort.py:215-264, on two arrays
of signed integers of `w` bits, without the variance terms. The row sums (lines 190-203) are products
with index arrays, and so `int64`. -/
def mergesortTermsNarrow (argsort : (Fin n → BitVec w) → Equiv.Perm (Fin n)) (x y : Fin n → BitVec w) :
    Except PyErr (CoreTerms (BitVec 64) n) := do
  let orderedIndexes := argsort x
  let xs := fun i => x (orderedIndexes i)
  let ys := fun i => y (orderedIndexes i)
  let aijbij ← aijbijNarrow xs ys
  let aI ← computeRowSums fun i => (xs i).signExtend 64
  let orderedIndexesY := argsort ys
  let bPerm ← computeRowSums fun i => (ys (orderedIndexesY i)).signExtend 64
  let bI := scatter (fun _ => 0) orderedIndexesY bPerm
  pure { meanProd := aijbij, aAxis := aI, aTotal := ∑ i, aI i, bAxis := bI, bTotal := ∑ i, bI i }

/-- The terms of the two methods on signed integers of `w` bits. -/
def signedTerms (m : FastMethod) (argsort : (Fin n → BitVec w) → Equiv.Perm (Fin n))
    (x y : Fin n → BitVec w) : Except PyErr (CoreTerms (BitVec 64) n) :=
  match m with
  | .avl => avlTermsNarrow (.signed w) argsort x y
  | .mergesort => mergesortTermsNarrow argsort x y

/-- `_DcovAlgorithmInternals.dcov_sqr`, dcor/_dcor.py:217-238, from integer terms. -/
noncomputable def dcovSqrOfInt64 (m : FastMethod) (terms : Except PyErr (CoreTerms (BitVec 64) n))
    (biasCorrected : Bool) : Except PyErr (FP ℝ) := do
  let t ← terms
  let c := t.int64ToReal
  dcovFromTerms m.meanKind .numpy .numpy c.meanProd c.aAxis c.aTotal c.bAxis c.bTotal biasCorrected

/-- `_DcovAlgorithmInternals.stats_sqr`, dcor/_dcor.py:240-313, from integer terms and the values of the
samples, which `np.var` converts to floats (dcor/_fast_dcov_avl.py:410-411,
dcor/_fast_dcov_mergesort.py:260-261). -/
noncomputable def statsSqrOfInt64 (m : FastMethod) (terms : Except PyErr (CoreTerms (BitVec 64) n))
    (x y : Fin n → ℤ) (biasCorrected : Bool) : Except PyErr Stats := do
  let t ← terms
  let c := t.int64ToReal
  let va : ℝ := varTerm fun i => (x i : ℝ)
  let vb : ℝ := varTerm fun i => (y i : ℝ)
  let cov ← dcovFromTerms m.meanKind .numpy .numpy c.meanProd c.aAxis c.aTotal c.bAxis c.bTotal
    biasCorrected
  let vx ← dcovFromTerms .numpy .numpy .numpy va c.aAxis c.aTotal c.aAxis c.aTotal biasCorrected
  let vy ← dcovFromTerms .numpy .numpy .numpy vb c.bAxis c.bTotal c.bAxis c.bTotal biasCorrected
  let denominator := sqrtClip (FP.abs (vx * vy))
  let corr := if denominator.IsZero then .fin 0 else cov / denominator
  pure ⟨cov, corr, vx, vy⟩

/-- `dcov_sqr` of the fast methods on signed integers of `w` bits. -/
noncomputable def dcovSqrSigned (m : FastMethod) (argsort : (Fin n → BitVec w) → Equiv.Perm (Fin n))
    (x y : Fin n → BitVec w) (biasCorrected : Bool) : Except PyErr (FP ℝ) :=
  dcovSqrOfInt64 m (signedTerms m argsort x y) biasCorrected

/-- `stats_sqr` of the fast methods on signed integers of `w` bits. -/
noncomputable def statsSqrSigned (m : FastMethod) (argsort : (Fin n → BitVec w) → Equiv.Perm (Fin n))
    (x y : Fin n → BitVec w) (biasCorrected : Bool) : Except PyErr Stats :=
  statsSqrOfInt64 m (signedTerms m argsort x y) (fun i => (x i).toInt) (fun i => (y i).toInt)
    biasCorrected

/-- `dcov_sqr` of the AVL method on booleans. -/
noncomputable def dcovSqrBool (argsort : (Fin n → Bool) → Equiv.Perm (Fin n)) (x y : Fin n → Bool)
    (biasCorrected : Bool) : Except PyErr (FP ℝ) :=
  dcovSqrOfInt64 .avl (avlTermsNarrow .bool argsort x y) biasCorrected

/-- `stats_sqr` of the AVL method on booleans. -/
noncomputable def statsSqrBool (argsort : (Fin n → Bool) → Equiv.Perm (Fin n)) (x y : Fin n → Bool)
    (biasCorrected : Bool) : Except PyErr Stats :=
  statsSqrOfInt64 .avl (avlTermsNarrow .bool argsort x y) (fun i => if x i then 1 else 0)
    (fun i => if y i then 1 else 0) biasCorrected

end Dcor

/-
Model of the fast algorithms and of the naive method with an arbitrary arithmetic.

`Verif/Model/Avl.lean` and `Verif/Model/Mergesort.lean` compute in a commutative ring. Here every operation of
the Python code is written in the order in which it is executed, for operations that satisfy no laws: floating
point numbers with rounding, overflow, infinities and NaN are an instance. `binary64` is the arithmetic of
`float64` on numbers that neither overflow nor underflow.
-/
import Verif.Model.Mergesort
import Mathlib.Data.List.OfFn
import Mathlib.Algebra.Order.Field.Basic

namespace Dcor

/-- The arithmetic of array elements: conversion of Python integers, the four operations, `np.sum`, the
product of two vectors (`@`), `np.sqrt`, `np.abs` and the comparisons `<` and `==`. -/
structure Arith (R : Type) where
  ofInt : ℤ → R
  add : R → R → R
  sub : R → R → R
  mul : R → R → R
  div : R → R → R
  sum : List R → R
  dot : List (R × R) → R
  sqrt : R → R
  abs : R → R
  lt : R → R → Bool
  eq : R → R → Bool

namespace Arith

variable {R : Type} (A : Arith R)

/-- `np.sum` of a vector. -/
def vsum {n : ℕ} (v : Fin n → R) : R := A.sum (List.ofFn v)

/-- `v @ w`. -/
def vdot {n : ℕ} (v w : Fin n → R) : R := A.dot (List.ofFn fun i => (v i, w i))

/-- Entry `k` of `np.cumsum`, which adds the elements one by one. -/
def cumsumAt {n : ℕ} (v : Fin n → R) : (k : ℕ) → k < n → R
  | 0, h => v ⟨0, h⟩
  | k + 1, h => A.add (cumsumAt v k (by omega)) (v ⟨k + 1, h⟩)

/-- `np.cumsum`. -/
def cumsum {n : ℕ} (v : Fin n → R) : Fin n → R := fun k => A.cumsumAt v k k.2

/-- `k * a` with a Python integer `k`. -/
def imul (k : ℤ) (a : R) : R := A.mul (A.ofInt k) a

/-- `a / k` with a Python integer `k`. -/
def idiv (a : R) (k : ℤ) : R := A.div a (A.ofInt k)

/-! ### AVL -/

/-- `s[pos] += v`, dcor/_fast_dcov_avl.py:85 (see `fancyAdd`). -/
def fancyAdd {m k : ℕ} (s : Fin m → R) (pos : Fin k → ℤ) (v : R) : Except PyErr (Fin m → R) :=
  if ∀ l, 0 ≤ pos l ∧ pos l < m then
    .ok (fun p => if ∃ l, pos l = ((p : ℕ) : ℤ) then A.add (s p) v else s p)
  else .error .indexError

/-- Body of the loop of `_dyad_update`, dcor/_fast_dcov_avl.py:78-85. -/
def dyadStep {n sLen lMax : ℕ} (y : Fin n → ℤ) (c : Fin n → R) (ps : Fin lMax → ℤ)
    (st : (Fin n → R) × (Fin sLen → R)) (i : Fin n) :
    Except PyErr ((Fin n → R) × (Fin sLen → R)) := do
  let vals ← ((List.finRange lMax).filter (fun l : Fin lMax => validPosition (y i) l)).mapM
    (fun l => rd st.2 (positions3b ps (y i) l))
  let g := Function.update st.1 i (A.sum vals)
  let s ← A.fancyAdd st.2 (positions3a ps (y i)) (c i)
  pure (g, s)

/-- `_dyad_update`, dcor/_fast_dcov_avl.py:43-87. -/
def dyadUpdate {n sLen : ℕ} (y : Fin n → ℤ) (c gamma : Fin n → R) (lMax : ℕ)
    (_s : Fin sLen → R) (ps : Fin lMax → ℤ) : Except PyErr (Fin n → R) := do
  let s0 : Fin sLen → R := fun _ => A.ofInt 0
  let r ← (List.finRange n).foldlM (A.dyadStep y c ps) (gamma, s0)
  pure r.1

/-- Body of step 3.a of `_dyad_update_compiled_version`, dcor/_fast_dcov_avl.py:115-121. -/
def compiledBody3a {n sLen lMax : ℕ} (y : Fin n → ℤ) (c : Fin n → R) (ps : Fin lMax → ℤ) (i : ℕ)
    (s : Fin sLen → R) (l : ℕ) : Except PyErr (Fin sLen → R) := do
  let yi ← rd y ((i : ℤ) - 1)
  let k := ⌈(yi : ℚ) / 2 ^ l⌉
  let off ← compiledOffset ps l
  let pos := k - 1 + off
  let ci ← rd c ((i : ℤ) - 1)
  let old ← rd s pos
  wr s pos (A.add old ci)

/-- Body of steps 3.b and 3.c of `_dyad_update_compiled_version`,
dcor/_fast_dcov_avl.py:125-130. -/
def compiledBody3bc {n sLen lMax : ℕ} (y : Fin n → ℤ) (ps : Fin lMax → ℤ) (i : ℕ)
    (s : Fin sLen → R) (g : Fin n → R) (l : ℕ) : Except PyErr (Fin n → R) := do
  let yi ← rd y (i : ℤ)
  let pos := ⌊((yi : ℚ) - 1) / 2 ^ l⌋ - 1
  if pos % 2 = 0 then do
    let off ← compiledOffset ps l
    let old ← rd g (i : ℤ)
    let sv ← rd s (pos + off)
    wr g (i : ℤ) (A.add old sv)
  else pure g

/-- Body of the loop of `_dyad_update_compiled_version`, dcor/_fast_dcov_avl.py:111-130. -/
def dyadStepCompiled {n sLen lMax : ℕ} (y : Fin n → ℤ) (c : Fin n → R) (ps : Fin lMax → ℤ)
    (st : (Fin n → R) × (Fin sLen → R)) (i : ℕ) :
    Except PyErr ((Fin n → R) × (Fin sLen → R)) := do
  let s ← (List.range lMax).foldlM (A.compiledBody3a y c ps i) st.2
  let g ← (List.range lMax).foldlM (A.compiledBody3bc y ps i s) st.1
  pure (g, s)

/-- `_dyad_update_compiled_version`, dcor/_fast_dcov_avl.py:90-132. -/
def dyadUpdateCompiled {n sLen : ℕ} (y : Fin n → ℤ) (c gamma : Fin n → R) (lMax : ℕ)
    (_s : Fin sLen → R) (ps : Fin lMax → ℤ) : Except PyErr (Fin n → R) := do
  let s0 : Fin sLen → R := fun _ => A.ofInt 0
  let r ← (List.range' 1 (n - 1)).foldlM (A.dyadStepCompiled y c ps) (gamma, s0)
  pure r.1

/-- `_partial_sum_2d`, dcor/_fast_dcov_avl.py:150-177. -/
def partialSum2d {n sLen : ℕ} (compiled : Bool) (y : Fin n → ℤ) (c : Fin n → R)
    (ix iy : Fin n → Fin n) (sxc syc : Fin n → R) (cSum : R) (lMax : ℕ) (s : Fin sLen → R)
    (ps : Fin lMax → ℤ) (gamma : Fin n → R) : Except PyErr (Fin n → R) := do
  let g ← if compiled then A.dyadUpdateCompiled y c gamma lMax s ps
          else A.dyadUpdate y c gamma lMax s ps
  -- gamma = c_sum - c - 2 * sy_c[iy] - 2 * sx_c + 4 * gamma
  let g := fun i => A.add (A.sub (A.sub (A.sub cSum (c i)) (A.imul 2 (syc (iy i)))) (A.imul 2 (sxc i)))
    (A.imul 4 (g i))
  pure (fun i => g (ix i))

/-- `_distance_covariance_sqr_terms_avl_impl`, dcor/_fast_dcov_avl.py:202-414, without the variance terms, for
a given `l_max`. `argsort` returns some permutation (also if there are NaNs). The ranks are integers below
`2 ** 53`, and the divisions of ranks by powers of two are exact. -/
def avlTermsWith {n : ℕ} (lMax : ℕ) (compiled : Bool) (argsort : (Fin n → R) → Equiv.Perm (Fin n)) (x y : Fin n → R) :
    Except PyErr (CoreTerms R n) := do
  if ¬ (n > 3) then throw PyErr.assertionError
  -- _get_impl_args
  let argsortX := argsort x
  let vx := fun i => x (argsortX i)
  let ix := scatter (fun i : Fin n => ⟨0, i.pos⟩) argsortX id
  let argsortY := argsort y
  let vy := fun i => y (argsortY i)
  let iy := scatter (fun i : Fin n => ⟨0, i.pos⟩) argsortY id
  let yReord := fun i => y (argsortX i)
  let xTimesYReord := fun i => A.mul (x (argsortX i)) (y (argsortX i))
  let argsortYReord := argsort yReord
  let iyReord := scatter (fun i : Fin n => ⟨0, i.pos⟩) argsortYReord id
  let c : Fin 4 → Fin n → R := ![fun _ => A.ofInt 1, vx, yReord, xTimesYReord]
  let cReord : Fin 4 → Fin n → R := fun i k => c i (argsortYReord k)
  let sxC := fun i k => A.sub (A.cumsum (c i) k) (c i k)
  let syC := fun i k => A.sub (A.cumsum (cReord i) k) (cReord i k)
  let cSum := fun i => A.vsum (c i)
  -- Steps 2 to 6
  let sx := A.cumsum vx
  let sy := A.cumsum vy
  let betaX := fun i => A.sub (sx (ix i)) (vx (ix i))
  let betaY := fun i => A.sub (sy (iy i)) (vy (iy i))
  let xDot := A.vsum x
  let yDot := A.vsum y
  let aiDot := fun i => A.sub (A.add xDot (A.imul (2 * ((ix i : ℕ) : ℤ) - n) (x i))) (A.imul 2 (betaX i))
  let biDot := fun i => A.sub (A.add yDot (A.imul (2 * ((iy i : ℕ) : ℤ) - n) (y i))) (A.imul 2 (betaY i))
  let aDotDot := A.sub (A.imul 2 (A.vsum fun i => A.imul ((ix i : ℕ) : ℤ) (x i))) (A.imul 2 (A.vsum betaX))
  let bDotDot := A.sub (A.imul 2 (A.vsum fun i => A.imul ((iy i : ℕ) : ℤ) (y i))) (A.imul 2 (A.vsum betaY))
  -- Step 7
  let newY : Fin n → ℤ := fun i => ((iyReord i : ℕ) : ℤ) + 1
  let s : Fin (2 ^ (lMax + 1)) → R := fun _ => A.ofInt 0
  let ps := posSums lMax
  let part := fun (i : Fin 4) =>
    A.partialSum2d compiled newY (c i) ix iyReord (sxC i) (syC i) (cSum i) lMax s ps (fun _ => A.ofInt 0)
  let gamma1 ← part 0
  let gammaX ← part 1
  let gammaY ← part 2
  let gammaXY ← part 3
  -- Step 8: sum(x * y * gamma_1 + gamma_xy - x * gamma_y - y * gamma_x)
  let aijbij := A.vsum fun i =>
    A.sub (A.sub (A.add (A.mul (A.mul (x i) (y i)) (gamma1 i)) (gammaXY i)) (A.mul (x i) (gammaY i)))
      (A.mul (y i) (gammaX i))
  pure { meanProd := aijbij, aAxis := aiDot, aTotal := aDotDot, bAxis := biDot, bTotal := bDotDot }

/-- `_distance_covariance_sqr_terms_avl_impl`, dcor/_fast_dcov_avl.py:202-414, without the variance terms;
`math.ceil(np.log2(n))` (line 259) is the exact ceiling logarithm. -/
def avlTerms {n : ℕ} (compiled : Bool) (argsort : (Fin n → R) → Equiv.Perm (Fin n)) (x y : Fin n → R) :
    Except PyErr (CoreTerms R n) :=
  A.avlTermsWith (Nat.clog 2 n) compiled argsort x y

/-! ### Mergesort -/

/-- `weights_cumsum`, dcor/_fast_dcov_mergesort.py:57-60 and 70-73. -/
def weightsCumsum {n V : ℕ} (weights : Fin n → Fin V → R) (prev : Fin n → ℕ) :
    Except PyErr (Fin (n + 1) → Fin V → R) :=
  if h : ∀ t, prev t < n then
    .ok (fun k v => if hk : (k : ℕ) = 0 then A.ofInt 0
      else A.cumsum (fun t : Fin n => weights ⟨prev t, h t⟩ v) ⟨k - 1, by omega⟩)
  else .error .indexError

/-- The merge loop, dcor/_fast_dcov_mergesort.py:89-107. The comparison of two elements is any Boolean
function: with NaN it is not a total order. -/
def mergeLoop {Y : Type} {n V : ℕ} (ge : Y → Y → Bool) (y : Fin n → Y)
    (wc : Fin (n + 1) → Fin V → R) (prev : Fin n → ℕ) (last1 last2 : ℕ)
    (i1 i2 : ℕ) (st : MergeState R n V) : Except PyErr (ℕ × ℕ × MergeState R n V) :=
  if i1 ≤ last1 ∧ i2 ≤ last2 then do
    let previousIndex1 ← rd prev (i1 : ℤ)
    let previousIndex2 ← rd prev (i2 : ℤ)
    let y1 ← rd y (previousIndex1 : ℤ)
    let y2 ← rd y (previousIndex2 : ℤ)
    if ge y1 y2 then do
      let cur ← wr st.cur (st.idx : ℤ) previousIndex1
      mergeLoop ge y wc prev last1 last2 (i1 + 1) i2 { st with cur := cur, idx := st.idx + 1 }
    else do
      let cur ← wr st.cur (st.idx : ℤ) previousIndex2
      let hi ← rd wc ((last1 : ℤ) + 1)
      let lo ← rd wc (i1 : ℤ)
      let old ← rd st.ws (previousIndex2 : ℤ)
      let ws ← wr st.ws (previousIndex2 : ℤ) (fun v => A.add (old v) (A.sub (hi v) (lo v)))
      mergeLoop ge y wc prev last1 last2 i1 (i2 + 1)
        { cur := cur, idx := st.idx + 1, ws := ws, updates := st.updates + 1 }
  else pure (i1, i2, st)
termination_by (last1 + 1 - i1) + (last2 + 1 - i2)

/-- Body of the `for subarray_pair_idx` loop, dcor/_fast_dcov_mergesort.py:76-123. -/
def mergePair {Y : Type} {n V : ℕ} (ge : Y → Y → Bool) (y : Fin n → Y)
    (wc : Fin (n + 1) → Fin V → R) (prev : Fin n → ℕ) (len : ℕ) (st : MergeState R n V)
    (pairIdx : ℕ) : Except PyErr (MergeState R n V) := do
  let i1 := pairIdx
  let i2 := pairIdx + len
  let last1 := min (i1 + len - 1) (n - 1)
  let last2 := min (i2 + len - 1) (n - 1)
  let (i1, i2, st) ← A.mergeLoop ge y wc prev last1 last2 i1 i2 st
  if i1 ≤ last1 then do
    let (cur, idx) ← copyRest prev i1 last1 st.cur st.idx
    pure { st with cur := cur, idx := idx }
  else if i2 ≤ last2 then do
    let (cur, idx) ← copyRest prev i2 last2 st.cur st.idx
    pure { st with cur := cur, idx := idx }
  else pure st

/-- The outer `while` loop, dcor/_fast_dcov_mergesort.py:65-128. -/
def mergePasses {Y : Type} {n V : ℕ} (ge : Y → Y → Bool) (y : Fin n → Y)
    (weights : Fin n → Fin V → R) (len : ℕ) (hlen : 0 < len) (prev cur : Fin n → ℕ)
    (ws : Fin n → Fin V → R) (updates : ℕ) :
    Except PyErr ((Fin n → ℕ) × (Fin n → Fin V → R) × ℕ) :=
  if len < n then do
    let gap := 2 * len
    let wc ← A.weightsCumsum weights prev
    let st ← (rangeStep n gap).foldlM (A.mergePair ge y wc prev len)
      { cur := cur, idx := 0, ws := ws, updates := updates }
    mergePasses ge y weights (2 * len) (by omega) st.cur prev st.ws st.updates
  else pure (prev, ws, updates)
termination_by n - len

/-- `_compute_weight_sums`, dcor/_fast_dcov_mergesort.py:40-130. -/
def computeWeightSums {Y : Type} {n V : ℕ} (ge : Y → Y → Bool) (y : Fin n → Y)
    (weights : Fin n → Fin V → R) :
    Except PyErr ((Fin n → ℕ) × (Fin n → Fin V → R) × ℕ) :=
  A.mergePasses ge y weights 1 (by omega) (fun i => (i : ℕ)) (fun _ => 0) (fun _ _ => A.ofInt 0) 0

/-- `_compute_aijbij_term`, dcor/_fast_dcov_mergesort.py:142-174 (`x` already sorted). -/
def computeAijbijTerm {n : ℕ} (ge : R → R → Bool) (x y : Fin n → R) : Except PyErr R := do
  let xy := fun i => A.mul (x i) (y i)
  let weights : Fin n → Fin 4 → R := fun i => ![A.ofInt 1, y i, x i, xy i]
  let r ← A.computeWeightSums ge y weights
  let ws := r.2.1
  let term1 := A.vdot xy (fun i => ws i 0)
  let term2 := A.vdot x (fun i => ws i 1)
  let term3 := A.vdot y (fun i => ws i 2)
  let term4 := A.vsum (fun i => ws i 3)
  let sumsTerm := A.add (A.sub (A.sub term1 term2) term3) term4
  let sumX := A.vsum x
  let sumY := A.vsum y
  -- n * x @ y - sum(sum_x * y + sum_y * x) + sum_x * sum_y
  let covTerm := A.add (A.sub (A.vdot (fun i => A.imul n (x i)) y)
    (A.vsum fun i => A.add (A.mul sumX (y i)) (A.mul sumY (x i)))) (A.mul sumX sumY)
  pure (A.sub (A.imul 4 sumsTerm) (A.imul 2 covTerm))

/-- `_compute_row_sums`, dcor/_fast_dcov_mergesort.py:190-203 (`x` sorted). -/
def computeRowSums {n : ℕ} (x : Fin n → R) : Except PyErr (Fin n → R) :=
  if h : 0 < n then
    let sums := A.cumsum x
    let last := sums ⟨n - 1, by omega⟩
    .ok (fun i => A.add (A.imul (2 * (((i : ℕ) + 1 : ℕ) : ℤ) - n) (x i)) (A.sub last (A.imul 2 (sums i))))
  else .error .indexError

/-- `_distance_covariance_sqr_terms_mergesort_impl`, dcor/_fast_dcov_mergesort.py:215-264, for two
arrays of the same length, without the variance terms. -/
def mergesortTerms {n : ℕ} (ge : R → R → Bool) (argsort : (Fin n → R) → Equiv.Perm (Fin n))
    (x y : Fin n → R) : Except PyErr (CoreTerms R n) := do
  let orderedIndexes := argsort x
  let xs := fun i => x (orderedIndexes i)
  let ys := fun i => y (orderedIndexes i)
  let aijbij ← A.computeAijbijTerm ge xs ys
  let aI ← A.computeRowSums xs
  let orderedIndexesY := argsort ys
  let bPerm ← A.computeRowSums (fun i => ys (orderedIndexesY i))
  let bI := scatter (fun _ => A.ofInt 0) orderedIndexesY bPerm
  pure { meanProd := aijbij, aAxis := aI, aTotal := A.vsum aI, bAxis := bI, bTotal := A.vsum bI }

/-! ### From the terms to the results -/

/-- `2 * n**2 * np.var(x)`, dcor/_fast_dcov_avl.py:410-411. -/
def varTerm {n : ℕ} (x : Fin n → R) : R :=
  let mean := A.idiv (A.vsum x) n
  let d := fun i => A.sub (x i) mean
  A.imul (2 * (n : ℤ) ^ 2) (A.idiv (A.vsum fun i => A.mul (d i) (d i)) n)

/-- `_dcov_from_terms`, dcor/_dcor_internals.py:176-199, for a positive number of samples (more than three if
`bias_corrected`). Products of Python integers are exact. -/
def fromTerms {n : ℕ} (biasCorrected : Bool) (meanProd : R) (aAxis : Fin n → R) (aTotal : R) (bAxis : Fin n → R)
    (bTotal : R) : R :=
  let m : ℤ := n
  let first := A.idiv meanProd m
  let second := A.vdot (fun i => A.idiv (aAxis i) m) bAxis
  let third := A.mul (A.idiv aTotal m) bTotal
  let first := A.idiv first (if biasCorrected then m - 3 else m)
  let second := A.idiv second (if biasCorrected then (m - 2) * (m - 3) else m ^ 2)
  let third := A.idiv third (if biasCorrected then (m - 1) * (m - 2) * (m - 3) else m ^ 3)
  A.add (A.sub first (A.imul 2 second)) third

/-- `_sqrt`, dcor/_utils.py:89-111. -/
def sqrtClip (a : R) : R := A.sqrt (if A.lt a (A.ofInt 0) then A.ofInt 0 else a)

/-- `a == 0.0`. -/
def eqZero (a : R) : Bool := A.eq a (A.ofInt 0)

/-- The terms of a method together with its two variance terms. -/
structure AllTerms (R : Type) (n : ℕ) where
  core : CoreTerms R n
  aMeanProd : R
  bMeanProd : R

/-- `_DcovAlgorithmInternals.dcov_sqr`, dcor/_dcor.py:216-239, after the terms. -/
def covFromTerms {n : ℕ} (biasCorrected : Bool) (t : CoreTerms R n) : R :=
  A.fromTerms biasCorrected t.meanProd t.aAxis t.aTotal t.bAxis t.bTotal

/-- Squared covariance, correlation and variances. -/
structure StatsSqr (R : Type) where
  cov : R
  corr : R
  varX : R
  varY : R

/-- `_DcovAlgorithmInternals.stats_sqr`, dcor/_dcor.py:241-313, after the terms. -/
def statsFromTerms {n : ℕ} (biasCorrected : Bool) (t : AllTerms R n) : StatsSqr R :=
  let cov := A.covFromTerms biasCorrected t.core
  let varX := A.fromTerms biasCorrected t.aMeanProd t.core.aAxis t.core.aTotal t.core.aAxis t.core.aTotal
  let varY := A.fromTerms biasCorrected t.bMeanProd t.core.bAxis t.core.bTotal t.core.bAxis t.core.bTotal
  let denominator := A.sqrtClip (A.abs (A.mul varX varY))
  let corr := if A.eqZero denominator then A.ofInt 0 else A.div cov denominator
  { cov := cov, corr := corr, varX := varX, varY := varY }

/-! ### Naive method -/

/-- `scipy.spatial.distance.cdist(x, x, metric='euclidean')`, dcor/distances.py:52, with exponent 1: the square
root of the sum of the squared differences. -/
def euclidean {n p : ℕ} (x : Fin n → Fin p → R) (i j : Fin n) : R :=
  A.sqrt (A.vsum fun k => A.mul (A.sub (x i k) (x j k)) (A.sub (x i k) (x j k)))

/-- `a_vec @ b_vec` of two reshaped matrices, dcor/_dcor_internals.py:157-160. -/
def mdot {n : ℕ} (a b : Fin n → Fin n → R) : R :=
  A.dot ((List.finRange n).flatMap fun i => (List.finRange n).map fun j => (a i j, b i j))

/-- `_symmetric_matrix_sums`, dcor/_dcor_internals.py:77-88. -/
def axisSum {n : ℕ} (a : Fin n → Fin n → R) (i : Fin n) : R := A.vsum (a i)

/-- `_dcov_terms_naive`, dcor/_dcor_internals.py:131-173, of two distance matrices. -/
def naiveTerms {n : ℕ} (a b : Fin n → Fin n → R) : AllTerms R n where
  core :=
    { meanProd := A.mdot a b
      aAxis := A.axisSum a
      aTotal := A.vsum (A.axisSum a)
      bAxis := A.axisSum b
      bTotal := A.vsum (A.axisSum b) }
  aMeanProd := A.mdot a a
  bMeanProd := A.mdot b b

/-- Statistics of the naive method with exponent 1, dcor/_dcor.py:216-313 and
dcor/_dcor_internals.py:131-173. -/
def naiveStats {n p q : ℕ} (biasCorrected : Bool) (x : Fin n → Fin p → R) (y : Fin n → Fin q → R) : StatsSqr R :=
  A.statsFromTerms biasCorrected (A.naiveTerms (A.euclidean x) (A.euclidean y))

/-- Statistics of the AVL method, dcor/_dcor.py:216-313 and dcor/_fast_dcov_avl.py:202-414. -/
def avlStats {n : ℕ} (biasCorrected compiled : Bool) (argsort : (Fin n → R) → Equiv.Perm (Fin n))
    (x y : Fin n → R) : Except PyErr (StatsSqr R) := do
  let t ← A.avlTerms compiled argsort x y
  pure (A.statsFromTerms biasCorrected { core := t, aMeanProd := A.varTerm x, bMeanProd := A.varTerm y })

/-- Statistics of the mergesort method, dcor/_dcor.py:216-313 and dcor/_fast_dcov_mergesort.py:215-264. -/
def mergesortStats {n : ℕ} (biasCorrected : Bool) (ge : R → R → Bool)
    (argsort : (Fin n → R) → Equiv.Perm (Fin n)) (x y : Fin n → R) : Except PyErr (StatsSqr R) := do
  let t ← A.mergesortTerms ge argsort x y
  pure (A.statsFromTerms biasCorrected { core := t, aMeanProd := A.varTerm x, bMeanProd := A.varTerm y })

end Arith

/-! ### Exact arithmetic -/

open Classical in
/-- Arithmetic in a field without rounding. -/
noncomputable def exactArith (K : Type) [Field K] [LinearOrder K] [IsStrictOrderedRing K] (sqrt : K → K) :
    Arith K where
  ofInt k := (k : K)
  add := (· + ·)
  sub := (· - ·)
  mul := (· * ·)
  div := (· / ·)
  sum := List.sum
  dot l := (l.map fun p => p.1 * p.2).sum
  sqrt := sqrt
  abs a := |a|
  lt a b := decide (a < b)
  eq a b := decide (a = b)

/-! ### Rounding to nearest, ties to even, 53 bits -/

/-- `N / D` rounded to the nearest integer, ties to even. -/
def divEven (N D : ℕ) : ℕ :=
  let m := N / D
  let r := N % D
  if 2 * r < D then m else if D < 2 * r then m + 1 else if m % 2 = 0 then m else m + 1

/-- Numerator of `p / d * 2 ^ k`. -/
def scaleNum (p : ℕ) (k : ℤ) : ℕ := if 0 ≤ k then p * 2 ^ k.toNat else p

/-- Denominator of `p / d * 2 ^ k`. -/
def scaleDen (d : ℕ) (k : ℤ) : ℕ := if 0 ≤ k then d else d * 2 ^ (-k).toNat

/-- The positive number `p / d` rounded to 53 significant bits: `k` is such that
`2 ^ 52 ≤ p / d * 2 ^ k < 2 ^ 53`, and the integer nearest to `p / d * 2 ^ k` is scaled back. -/
def roundPos (p d : ℕ) : ℚ :=
  let k0 : ℤ := 52 - ((Nat.log2 p : ℤ) - (Nat.log2 d : ℤ))
  let k := if scaleNum p k0 < 2 ^ 52 * scaleDen d k0 then k0 + 1 else k0
  let m := divEven (scaleNum p k) (scaleDen d k)
  if 0 ≤ k then mkRat m (2 ^ k.toNat) else mkRat (m * 2 ^ (-k).toNat) 1

/-- Rounding of the IEEE 754 binary64 format: to nearest, ties to even, 53 bits of precision. The range of
exponents is not limited: overflow and underflow are not modelled. -/
def round64 (q : ℚ) : ℚ :=
  if q.num = 0 then 0 else if q.num < 0 then -roundPos q.num.natAbs q.den else roundPos q.num.natAbs q.den

/-- `r` is a sum of the elements of the list, added in some order and with some parenthesisation, each addition
rounded. This covers pairwise summation, several accumulators and any order of the elements; starting an
accumulator from zero makes no difference because `0 + a` is `a`. -/
inductive SumsTo : List ℚ → ℚ → Prop
  | nil : SumsTo [] 0
  | single (a : ℚ) : SumsTo [a] a
  | add {l l' : List ℚ} {a b : ℚ} (hl : l ≠ []) (hl' : l' ≠ []) :
      SumsTo l a → SumsTo l' b → SumsTo (l ++ l') (round64 (a + b))
  | perm {l l' : List ℚ} {a : ℚ} : SumsTo l a → l.Perm l' → SumsTo l' a

/-- `r` is a scalar product computed in some order; a product may be rounded before it is added, or not (fused
multiply-add). -/
inductive DotsTo : List (ℚ × ℚ) → ℚ → Prop
  | nil : DotsTo [] 0
  | single (a b : ℚ) : DotsTo [(a, b)] (round64 (a * b))
  | fma (a b : ℚ) {l : List (ℚ × ℚ)} {c : ℚ} (hl : l ≠ []) : DotsTo l c → DotsTo ((a, b) :: l) (round64 (a * b + c))
  | add {l l' : List (ℚ × ℚ)} {a b : ℚ} (hl : l ≠ []) (hl' : l' ≠ []) :
      DotsTo l a → DotsTo l' b → DotsTo (l ++ l') (round64 (a + b))
  | perm {l l' : List (ℚ × ℚ)} {a : ℚ} : DotsTo l a → l.Perm l' → DotsTo l' a

/-- `r` is the square root of `q ≥ 0` rounded to nearest: zero, or `m / 2 ^ k` with
`2 ^ 52 ≤ sqrt q * 2 ^ k < 2 ^ 53` and `|m - sqrt q * 2 ^ k| ≤ 1 / 2`. -/
def SqrtTo (q r : ℚ) : Prop :=
  q = 0 ∧ r = 0 ∨ 0 < q ∧ ∃ (k : ℤ) (m : ℕ), 2 ^ 104 ≤ q * 4 ^ k ∧ q * 4 ^ k < 2 ^ 106 ∧ r = m * 2 ^ (-k) ∧
    (2 * (m : ℚ) - 1) ^ 2 ≤ 4 * (q * 4 ^ k) ∧ 4 * (q * 4 ^ k) ≤ (2 * (m : ℚ) + 1) ^ 2

/-- `float64` arithmetic on finite numbers, without overflow and underflow, given the square root and the ways
in which vectors are summed and multiplied. -/
def binary64 (sqrt : ℚ → ℚ) (sum : List ℚ → ℚ) (dot : List (ℚ × ℚ) → ℚ) : Arith ℚ where
  ofInt k := round64 k
  add a b := round64 (a + b)
  sub a b := round64 (a - b)
  mul a b := round64 (a * b)
  div a b := round64 (a / b)
  sum := sum
  dot := dot
  sqrt := sqrt
  abs a := |a|
  lt a b := decide (a < b)
  eq a b := decide (a = b)

/-- What is assumed of `np.sqrt`, `np.sum` and `@`. -/
structure IsFloat64 (sqrt : ℚ → ℚ) (sum : List ℚ → ℚ) (dot : List (ℚ × ℚ) → ℚ) : Prop where
  sqrt : ∀ q, 0 ≤ q → SqrtTo q (sqrt q)
  sum : ∀ l, SumsTo l (sum l)
  dot : ∀ l, DotsTo l (dot l)

/-- Sum of `float64` numbers from left to right: `np.sum` of fewer than eight elements. -/
def seqSum64 : List ℚ → ℚ
  | [] => 0
  | a :: l => l.foldl (fun s b => round64 (s + b)) a

/-- Scalar product from left to right, with rounded products. -/
def seqDot64 (l : List (ℚ × ℚ)) : ℚ := seqSum64 (l.map fun p => round64 (p.1 * p.2))

end Dcor

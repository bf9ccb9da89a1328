/-
The fast algorithms with a count of the elementary steps, for property C83.

The functions are those of `Model/Avl.lean` and `Model/Mergesort.lean` with a counter. A step is an access to an element of
an array, a comparison or an arithmetic operation on scalars, or the work of a vectorised operation on one element; work
that does not depend on the number of observations (a fixed number of scalar operations per call) is not counted. The time
taken by `np.argsort` is a parameter.
-/
import Verif.Model.Dcor

namespace Dcor

variable {R : Type}

/-- Outcome of a computation and the number of steps until it finished or raised an exception. -/
structure Cost (α : Type) where
  out : Except PyErr α
  steps : ℕ

namespace Cost

variable {α β : Type}

protected def pure (a : α) : Cost α := ⟨.ok a, 0⟩

protected def bind (m : Cost α) (f : α → Cost β) : Cost β :=
  match m.out with
  | .ok a => ⟨(f a).out, m.steps + (f a).steps⟩
  | .error e => ⟨.error e, m.steps⟩

instance : Monad Cost where
  pure := Cost.pure
  bind := Cost.bind

/-- An operation that takes `k` steps. -/
def op (k : ℕ) (e : Except PyErr α) : Cost α := ⟨e, k⟩

end Cost

open Cost

/-! ### Mergesort -/

/-- `mergeLoop` (dcor/_fast_dcov_mergesort.py:89-107) with its steps: one for the condition of the loop; for every read and
write; for the comparison; for each of the `V` elements of the vectors in lines 103-106. -/
def mergeLoopC [AddCommGroup R] {Y : Type} {n V : ℕ} (ge : Y → Y → Bool) (y : Fin n → Y)
    (wc : Fin (n + 1) → Fin V → R) (prev : Fin n → ℕ) (last1 last2 : ℕ)
    (i1 i2 : ℕ) (st : MergeState R n V) : Cost (ℕ × ℕ × MergeState R n V) :=
  if i1 ≤ last1 ∧ i2 ≤ last2 then do
    op 1 (.ok ())
    let previousIndex1 ← op 1 (rd prev (i1 : ℤ))
    let previousIndex2 ← op 1 (rd prev (i2 : ℤ))
    let y1 ← op 1 (rd y (previousIndex1 : ℤ))
    let y2 ← op 1 (rd y (previousIndex2 : ℤ))
    op 1 (.ok ())
    if ge y1 y2 then do
      let cur ← op 1 (wr st.cur (st.idx : ℤ) previousIndex1)
      mergeLoopC ge y wc prev last1 last2 (i1 + 1) i2 { st with cur := cur, idx := st.idx + 1 }
    else do
      let cur ← op 1 (wr st.cur (st.idx : ℤ) previousIndex2)
      let hi ← op V (rd wc ((last1 : ℤ) + 1))
      let lo ← op V (rd wc (i1 : ℤ))
      let old ← op V (rd st.ws (previousIndex2 : ℤ))
      -- the subtraction, the addition and the store
      let ws ← op (3 * V) (wr st.ws (previousIndex2 : ℤ) (fun v => old v + (hi v - lo v)))
      mergeLoopC ge y wc prev last1 last2 i1 (i2 + 1)
        { cur := cur, idx := st.idx + 1, ws := ws, updates := st.updates + 1 }
  else do
    op 1 (.ok ())
    pure (i1, i2, st)
termination_by (last1 + 1 - i1) + (last2 + 1 - i2)

/-- `copyRest` (dcor/_fast_dcov_mergesort.py:110-123): a read and a write per element. -/
def copyRestC {n : ℕ} (prev : Fin n → ℕ) (i last : ℕ) (cur : Fin n → ℕ) (idx : ℕ) :
    Cost ((Fin n → ℕ) × ℕ) := do
  let cur ← (List.range (last + 1 - i)).foldlM (fun cur (k : ℕ) => do
    let v ← op 1 (rd prev ((i : ℤ) + k))
    op 1 (wr cur ((idx : ℤ) + k) v)) cur
  pure (cur, idx + (last + 1 - i))

/-- `mergePair` (dcor/_fast_dcov_mergesort.py:76-123): ten steps for the computation of the bounds and the conditions. -/
def mergePairC [AddCommGroup R] {Y : Type} {n V : ℕ} (ge : Y → Y → Bool) (y : Fin n → Y)
    (wc : Fin (n + 1) → Fin V → R) (prev : Fin n → ℕ) (len : ℕ) (st : MergeState R n V)
    (pairIdx : ℕ) : Cost (MergeState R n V) := do
  op 10 (.ok ())
  let i1 := pairIdx
  let i2 := pairIdx + len
  let last1 := min (i1 + len - 1) (n - 1)
  let last2 := min (i2 + len - 1) (n - 1)
  let (i1, i2, st) ← mergeLoopC ge y wc prev last1 last2 i1 i2 st
  if i1 ≤ last1 then do
    let (cur, idx) ← copyRestC prev i1 last1 st.cur st.idx
    pure { st with cur := cur, idx := idx }
  else if i2 ≤ last2 then do
    let (cur, idx) ← copyRestC prev i2 last2 st.cur st.idx
    pure { st with cur := cur, idx := idx }
  else pure st

/-- `mergePasses` (dcor/_fast_dcov_mergesort.py:65-128). Lines 70-73 gather, add and store `n` elements for each of the `V`
weights. -/
def mergePassesC [AddCommGroup R] {Y : Type} {n V : ℕ} (ge : Y → Y → Bool) (y : Fin n → Y)
    (weights : Fin n → Fin V → R) (len : ℕ) (hlen : 0 < len) (prev cur : Fin n → ℕ)
    (ws : Fin n → Fin V → R) (updates : ℕ) :
    Cost ((Fin n → ℕ) × (Fin n → Fin V → R) × ℕ) :=
  if len < n then do
    let gap := 2 * len
    let wc ← op (3 * n * V) (weightsCumsum weights prev)
    let st ← (rangeStep n gap).foldlM (mergePairC ge y wc prev len)
      { cur := cur, idx := 0, ws := ws, updates := updates }
    mergePassesC ge y weights (2 * len) (by omega) st.cur prev st.ws st.updates
  else pure (prev, ws, updates)
termination_by n - len

/-- `computeWeightSums` (dcor/_fast_dcov_mergesort.py:40-130): the arrays created at lines 47-60 have `n V`, `2 n` (filled
twice in half) and `(n + 1) V` elements. -/
def computeWeightSumsC [AddCommGroup R] {Y : Type} {n V : ℕ} (ge : Y → Y → Bool) (y : Fin n → Y)
    (weights : Fin n → Fin V → R) :
    Cost ((Fin n → ℕ) × (Fin n → Fin V → R) × ℕ) := do
  op (n * V + 3 * n + (n + 1) * V) (.ok ())
  mergePassesC ge y weights 1 (by omega) (fun i => (i : ℕ)) (fun _ => 0) (fun _ _ => 0) 0

/-- `computeAijbijTerm` (dcor/_fast_dcov_mergesort.py:142-174): the weights, the four terms and the sums of line 165-170 are
vectorised operations on at most `4 n` elements. -/
def computeAijbijTermC [CommRing R] {n : ℕ} (ge : R → R → Bool) (x y : Fin n → R) :
    Cost (R × ℕ) := do
  -- weights: ones, product, four columns
  let weights : Fin n → Fin 4 → R ← op (6 * n) (.ok fun i => ![1, y i, x i, x i * y i])
  let r ← computeWeightSumsC ge y weights
  let ws := r.2.1
  -- term_1: two products and a sum; term_2, term_3: a product and a sum; term_4: a sum
  let term1 ← op (3 * n) (.ok (∑ i, x i * y i * ws i 0))
  let term2 ← op (2 * n) (.ok (∑ i, x i * ws i 1))
  let term3 ← op (2 * n) (.ok (∑ i, y i * ws i 2))
  let term4 ← op n (.ok (∑ i, ws i 3))
  let sumsTerm := term1 - term2 - term3 + term4
  let sumX ← op n (.ok (∑ i, x i))
  let sumY ← op n (.ok (∑ i, y i))
  -- n * x @ y; sum_x * y + sum_y * x and its sum
  let covTerm ← op (7 * n) (.ok ((∑ i, (n : R) * x i * y i) - (∑ i, (sumX * y i + sumY * x i)) + sumX * sumY))
  pure (4 * sumsTerm - 2 * covTerm, r.2.2)

/-- `computeRowSums` (dcor/_fast_dcov_mergesort.py:190-203): eight vectorised operations. -/
def computeRowSumsC [CommRing R] {n : ℕ} (x : Fin n → R) : Cost (Fin n → R) :=
  op (8 * n) (computeRowSums x)

/-- `mergesortTermsImpl` (dcor/_fast_dcov_mergesort.py:215-264); `sort` is the time taken by `np.argsort`. -/
def mergesortTermsImplC [CommRing R] {n : ℕ} (sort : ℕ) (ge : R → R → Bool)
    (argsort : (Fin n → R) → Equiv.Perm (Fin n)) (x y : Fin n → R) :
    Cost (CoreTerms R n × ℕ) := do
  -- two copies at most
  op (2 * n) (.ok ())
  let orderedIndexes ← op sort (.ok (argsort x))
  let xs ← op n (.ok fun i => x (orderedIndexes i))
  let ys ← op n (.ok fun i => y (orderedIndexes i))
  let (aijbij, updates) ← computeAijbijTermC ge xs ys
  let aI ← computeRowSumsC xs
  let orderedIndexesY ← op sort (.ok (argsort ys))
  let yss ← op n (.ok fun i => ys (orderedIndexesY i))
  let bPerm ← computeRowSumsC yss
  let bI ← op (2 * n) (.ok (scatter (fun _ => 0) orderedIndexesY bPerm))
  let aTotal ← op n (.ok (∑ i, aI i))
  let bTotal ← op n (.ok (∑ i, bI i))
  pure ({ meanProd := aijbij, aAxis := aI, aTotal := aTotal, bAxis := bI,
          bTotal := bTotal }, updates)

/-! ### AVL -/

/-- `dyadStep` (dcor/_fast_dcov_avl.py:78-85): selecting the valid positions takes `lMax` steps; every one of them is read
and added; the result is stored; the last line reads, adds and stores `lMax` elements. -/
def dyadStepC [AddCommMonoid R] {n sLen lMax : ℕ} (y : Fin n → ℤ) (c : Fin n → R)
    (ps : Fin lMax → ℤ) (st : (Fin n → R) × (Fin sLen → R)) (i : Fin n) :
    Cost ((Fin n → R) × (Fin sLen → R)) := do
  op lMax (.ok ())
  let vals ← ((List.finRange lMax).filter (fun l : Fin lMax => validPosition (y i) l)).mapM
    (fun l => op 2 (rd st.2 (positions3b ps (y i) l)))
  let g ← op 1 (.ok (Function.update st.1 i vals.sum))
  let s ← op (3 * lMax) (fancyAdd st.2 (positions3a ps (y i)) (c i))
  pure (g, s)

/-- `dyadUpdate` (dcor/_fast_dcov_avl.py:43-87): the array `s` is filled; `exps2` is computed; lines 66-72 perform twelve
operations on arrays with `n lMax` elements. -/
def dyadUpdateC [AddCommMonoid R] {n sLen : ℕ} (y : Fin n → ℤ) (c gamma : Fin n → R) (lMax : ℕ)
    (_s : Fin sLen → R) (ps : Fin lMax → ℤ) : Cost (Fin n → R) := do
  let s0 : Fin sLen → R ← op sLen (.ok fun _ => 0)
  op (2 * lMax + n + 12 * (n * lMax)) (.ok ())
  let r ← (List.finRange n).foldlM (dyadStepC y c ps) (gamma, s0)
  pure r.1

/-- `compiledBody3a` (dcor/_fast_dcov_avl.py:115-121): the reads and the write, five scalar operations for the position, the
condition, the offset and the addition. -/
def compiledBody3aC [AddCommMonoid R] {n sLen lMax : ℕ} (y : Fin n → ℤ) (c : Fin n → R)
    (ps : Fin lMax → ℤ) (i : ℕ) (s : Fin sLen → R) (l : ℕ) : Cost (Fin sLen → R) := do
  let yi ← op 1 (rd y ((i : ℤ) - 1))
  let k ← op 4 (.ok ⌈(yi : ℚ) / 2 ^ l⌉)
  let off ← op 2 (compiledOffset ps l)
  let pos ← op 2 (.ok (k - 1 + off))
  let ci ← op 1 (rd c ((i : ℤ) - 1))
  let old ← op 1 (rd s pos)
  op 2 (wr s pos (old + ci))

/-- Step 3.a of the compiled version (dcor/_fast_dcov_avl.py:114-121). -/
def compiledStep3aC [AddCommMonoid R] {n sLen : ℕ} (y : Fin n → ℤ) (c : Fin n → R) (lMax : ℕ)
    (ps : Fin lMax → ℤ) (i : ℕ) (s : Fin sLen → R) : Cost (Fin sLen → R) :=
  (List.range lMax).foldlM (compiledBody3aC y c ps i) s

/-- `compiledBody3bc` (dcor/_fast_dcov_avl.py:125-130). -/
def compiledBody3bcC [AddCommMonoid R] {n sLen lMax : ℕ} (y : Fin n → ℤ) (ps : Fin lMax → ℤ)
    (i : ℕ) (s : Fin sLen → R) (g : Fin n → R) (l : ℕ) : Cost (Fin n → R) := do
  let yi ← op 1 (rd y (i : ℤ))
  let pos ← op 5 (.ok (⌊((yi : ℚ) - 1) / 2 ^ l⌋ - 1))
  op 2 (.ok ())
  if pos % 2 = 0 then do
    let off ← op 2 (compiledOffset ps l)
    let old ← op 1 (rd g (i : ℤ))
    let sv ← op 2 (rd s (pos + off))
    op 2 (wr g (i : ℤ) (old + sv))
  else pure g

/-- Steps 3.b and 3.c of the compiled version (dcor/_fast_dcov_avl.py:124-130). -/
def compiledStep3bcC [AddCommMonoid R] {n sLen : ℕ} (y : Fin n → ℤ) (lMax : ℕ)
    (ps : Fin lMax → ℤ) (i : ℕ) (s : Fin sLen → R) (gamma : Fin n → R) :
    Cost (Fin n → R) :=
  (List.range lMax).foldlM (compiledBody3bcC y ps i s) gamma

/-- Body of the loop of the compiled version (dcor/_fast_dcov_avl.py:111-130). -/
def dyadStepCompiledC [AddCommMonoid R] {n sLen lMax : ℕ} (y : Fin n → ℤ) (c : Fin n → R)
    (ps : Fin lMax → ℤ) (st : (Fin n → R) × (Fin sLen → R)) (i : ℕ) :
    Cost ((Fin n → R) × (Fin sLen → R)) := do
  let s ← compiledStep3aC y c lMax ps i st.2
  let g ← compiledStep3bcC y lMax ps i s st.1
  pure (g, s)

/-- `dyadUpdateCompiled` (dcor/_fast_dcov_avl.py:90-132). -/
def dyadUpdateCompiledC [AddCommMonoid R] {n sLen : ℕ} (y : Fin n → ℤ) (c gamma : Fin n → R)
    (lMax : ℕ) (_s : Fin sLen → R) (ps : Fin lMax → ℤ) : Cost (Fin n → R) := do
  let s0 : Fin sLen → R ← op sLen (.ok fun _ => 0)
  let r ← (List.range' 1 (n - 1)).foldlM (dyadStepCompiledC y c ps) (gamma, s0)
  pure r.1

/-- `partialSum2d` (dcor/_fast_dcov_avl.py:150-177): line 173 performs eight operations on arrays with `n` elements. -/
def partialSum2dC [CommRing R] {n sLen : ℕ} (compiled : Bool) (y : Fin n → ℤ) (c : Fin n → R)
    (ix iy : Fin n → Fin n) (sxc syc : Fin n → R) (cSum : R) (lMax : ℕ) (s : Fin sLen → R)
    (ps : Fin lMax → ℤ) (gamma : Fin n → R) : Cost (Fin n → R) := do
  let g ← if compiled then dyadUpdateCompiledC y c gamma lMax s ps
          else dyadUpdateC y c gamma lMax s ps
  let g ← op (8 * n) (.ok fun i => cSum - c i - 2 * syc (iy i) - 2 * sxc i + 4 * g i)
  op n (.ok fun i => g (ix i))

/-- `getImplArgs` (dcor/_fast_dcov_avl.py:202-285): three calls of `argsort` and operations on at most `4 n` elements (two
copies, `arange`, nine for the orders and the reordered samples, the weights, the loop, the sums, `gamma`), and on `lMax`
elements; the array `s` is not initialised. -/
def getImplArgsC [CommRing R] {n : ℕ} (sort : ℕ) (argsort : (Fin n → R) → Equiv.Perm (Fin n))
    (x y : Fin n → R) : Cost (ImplArgs R n) :=
  op (3 * sort + 71 * n + 5 * Nat.clog 2 n) (.ok (getImplArgs argsort x y))

/-- `avlTermsImpl` (dcor/_fast_dcov_avl.py:314-414). -/
def avlTermsImplC [CommRing R] {n : ℕ} (sort : ℕ) (compiled : Bool)
    (argsort : (Fin n → R) → Equiv.Perm (Fin n)) (x y : Fin n → R) :
    Cost (CoreTerms R n) := do
  if ¬ (n > 3) then op 0 (.error .assertionError)
  else do
    let a ← getImplArgsC sort argsort x y
    let sx ← op n (.ok (cumsum a.vx))
    let sy ← op n (.ok (cumsum a.vy))
    let alphaX : Fin n → R := fun i => ((a.ix i : ℕ) : R)
    let alphaY : Fin n → R := fun i => ((a.iy i : ℕ) : R)
    let betaX ← op (3 * n) (.ok fun i => sx (a.ix i) - a.vx (a.ix i))
    let betaY ← op (3 * n) (.ok fun i => sy (a.iy i) - a.vy (a.iy i))
    let xDot ← op n (.ok (∑ i, x i))
    let yDot ← op n (.ok (∑ i, y i))
    let aiDot ← op (6 * n) (.ok fun i => xDot + (2 * alphaX i - (n : R)) * x i - 2 * betaX i)
    let biDot ← op (6 * n) (.ok fun i => yDot + (2 * alphaY i - (n : R)) * y i - 2 * betaY i)
    let aDotDot ← op (3 * n) (.ok (2 * (∑ i, alphaX i * x i) - 2 * ∑ i, betaX i))
    let bDotDot ← op (3 * n) (.ok (2 * (∑ i, alphaY i * y i) - 2 * ∑ i, betaY i))
    let newY : Fin n → ℤ ← op n (.ok fun i => ((a.iyReord i : ℕ) : ℤ) + 1)
    let s : Fin (2 ^ (a.lMax + 1)) → R := fun _ => 0
    let ps := posSums a.lMax
    let part := fun (i : Fin 4) =>
      partialSum2dC compiled newY (a.c i) a.ix a.iyReord (a.sxC i) (a.syC i) (a.cSum i)
        a.lMax s ps (fun _ => 0)
    let gamma1 ← part 0
    let gammaX ← part 1
    let gammaY ← part 2
    let gammaXY ← part 3
    let aijbij ← op (8 * n) (.ok (∑ i, (x i * y i * gamma1 i + gammaXY i - x i * gammaY i - y i * gammaX i)))
    pure { meanProd := aijbij, aAxis := aiDot, aTotal := aDotDot, bAxis := biDot,
           bTotal := bDotDot }

/-! ### The statistics, for two one-dimensional `float64` NumPy arrays of the same length -/

open Classical in
/-- The terms computed by one of the fast methods (`avlImpl`, `mergesortImpl`); `np.var` at dcor/_fast_dcov_avl.py:410-411 and
dcor/_fast_dcov_mergesort.py:260-261 takes a mean, a difference, a square and a mean. `sort n` is the time of `np.argsort` for
`n` numbers. -/
noncomputable def fastTermsC (env : Env) (sort : ℕ → ℕ) (mergesort compiled : Bool) {n : ℕ} (x y : Fin n → ℝ)
    (returnVarTerms : Bool) : Cost Terms := do
  let core ← if mergesort then do
      let r ← mergesortTermsImplC (sort n) (fun a b : ℝ => decide (a ≥ b)) (env.argsort compiled) x y
      pure r.1
    else avlTermsImplC (sort n) compiled (env.argsort compiled) x y
  op (if returnVarTerms then 8 * n else 0) (.ok ())
  pure {
    n := n
    core := core
    varA := if returnVarTerms then some (varTerm x) else none
    varB := if returnVarTerms then some (varTerm y) else none
    kinds := if compiled then ⟨.python, .numpy, .python, .python⟩
             else if mergesort then ⟨.python, .numpy, .numpy, .numpy⟩
             else ⟨.numpy, .numpy, .numpy, .numpy⟩ }

/-- `dcovSqr` (dcor/_dcor.py:217-238): `_dcov_from_terms` divides an array by a number and computes a dot product
(dcor/_dcor_internals.py:186-187). -/
noncomputable def covSqrC (env : Env) (sort : ℕ → ℕ) (mergesort compiled : Bool) {n : ℕ} (x y : Fin n → ℝ)
    (biasCorrected : Bool) : Cost (FP ℝ) := do
  let t ← fastTermsC env sort mergesort compiled x y false
  op (3 * n) (dcovFromTerms t.kinds.mean t.kinds.axis t.kinds.total t.core.meanProd t.core.aAxis
    t.core.aTotal t.core.bAxis t.core.bTotal biasCorrected)

/-- `statsSqr` (dcor/_dcor.py:240-313). -/
noncomputable def statsSqrC (env : Env) (sort : ℕ → ℕ) (mergesort compiled : Bool) {n : ℕ} (x y : Fin n → ℝ)
    (biasCorrected : Bool) : Cost Stats := do
  let t ← fastTermsC env sort mergesort compiled x y true
  let c := t.core
  let k := t.kinds
  match t.varA, t.varB with
  | some va, some vb => do
    let cov ← op (3 * n) (dcovFromTerms k.mean k.axis k.total c.meanProd c.aAxis c.aTotal c.bAxis
      c.bTotal biasCorrected)
    let vx ← op (3 * n) (dcovFromTerms k.var k.axis k.total va c.aAxis c.aTotal c.aAxis
      c.aTotal biasCorrected)
    let vy ← op (3 * n) (dcovFromTerms k.var k.axis k.total vb c.bAxis c.bTotal c.bAxis
      c.bTotal biasCorrected)
    let denominator := sqrtClip (FP.abs (vx * vy))
    let corr := if denominator.IsZero then .fin 0 else cov / denominator
    pure ⟨cov, corr, vx, vy⟩
  | _, _ => op 0 (.error .typeError)

end Dcor

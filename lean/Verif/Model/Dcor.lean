/-
Model of dcor/_dcor.py: algorithm dispatch and the public covariance / correlation functions,
with the dispatchers of the two fast algorithms.
-/
import Verif.Model.Distances
import Verif.Model.Mergesort

namespace Dcor

/-- `CompileMode`, dcor/_utils.py:30-51. -/
inductive CompileMode where
  | auto
  | noCompile
  | compileCpu
  | compileParallel
  deriving DecidableEq, Repr

/-- `DistanceCovarianceMethod`, dcor/_dcor.py:380-417. -/
inductive Method where
  | auto
  | naive
  | avl
  | mergesort
  deriving DecidableEq, Repr

/-- `DistanceCovarianceMethodLike`, dcor/_dcor.py:424-427. -/
inductive MethodLike where
  | enum (m : Method)
  | name (s : String)

/-- `_to_algorithm`, dcor/_dcor.py:430-437. -/
def toAlgorithm (env : Env) : MethodLike → Except PyErr Method
  | .enum m => .ok m
  | .name s =>
    if env.upper s = "AUTO" then .ok .auto
    else if env.upper s = "NAIVE" then .ok .naive
    else if env.upper s = "AVL" then .ok .avl
    else if env.upper s = "MERGESORT" then .ok .mergesort
    else .error .keyError

/-- The 7-tuple of terms, plus the number of rows. -/
structure Terms where
  n : ℕ
  core : CoreTerms ℝ n
  varA : Option ℝ
  varB : Option ℝ
  kinds : Kinds

/-- `_check_valid_dcov_exponent`, dcor/_dcor_internals.py:32-41. -/
noncomputable def checkValidDcovExponent (exponent : ℝ) : PyM Unit :=
  if 0 < exponent ∧ exponent < 2 then PyM.pure () else PyM.warn .dcovExponent

/-- `_compute_distances`, dcor/_dcor_internals.py:657-672. The arrays produced by
`_transform_to_2d` belong to the common namespace. -/
noncomputable def computeDistances (env : Env) (x y : Arr) (exponent : ℝ) :
    PyM (SqMat × SqMat) := do
  checkValidDcovExponent exponent
  let x2 ← PyM.lift (transformTo2d x.data)
  let y2 ← PyM.lift (transformTo2d y.data)
  let ns := commonNs x.ns y.ns
  let a ← PyM.lift (pdist env ns x.dtype x2 exponent)
  let b ← PyM.lift (pdist env ns y.dtype y2 exponent)
  PyM.pure (⟨x2.n, a⟩, ⟨y2.n, b⟩)

/-- Elements of object arrays are Python numbers, and so is the scalar product with a numeric array
(dcor/_dcor_internals.py:162). Simplification: with one object array and one numeric array the product of
the total sums (line 188) is a NumPy number; it is divided by zero without a `ZeroDivisionError` before
only if there is just one observation. -/
def objKind (x y : Arr) : NumKind :=
  if x.dtype.isObject ∨ y.dtype.isObject then .python else .numpy

/-- Is exactly one of the arrays an array of `Decimal`? Arithmetic between a `Decimal` and a float or a
`Fraction` raises `TypeError`. -/
def mixedDecimal (x y : Arr) : Bool := (x.dtype == .decimal) != (y.dtype == .decimal)

/-- As `mixedDecimal`, but integers can be combined with `Decimal`. -/
def decimalWithFloat (x y : Arr) : Bool := decimalClash x.dtype y.dtype

/-- `_dcov_terms_naive`, dcor/_dcor_internals.py:130-173. `a_vec @ b_vec` raises `ValueError` if
the lengths differ and `TypeError` if only one of the arrays holds `Decimal`s (the distances between
integers are floats). -/
noncomputable def dcovTermsNaive (env : Env) (x y : Arr) (exponent : ℝ) (cm : CompileMode)
    (returnVarTerms : Bool) : PyM Terms := do
  if cm ≠ .auto ∧ cm ≠ .noCompile then PyM.throw .notImplementedError
  else do
    let ab ← computeDistances env x y exponent
    let a := ab.1
    let b := ab.2
    if h : a.n = b.n then
      let b' : Fin a.n → Fin a.n → ℝ := fun i j => b.e (Fin.cast h i) (Fin.cast h j)
      if mixedDecimal x y && a.n != 0 then PyM.throw .typeError
      else PyM.pure {
        n := a.n
        core := {
          meanProd := ∑ i, ∑ j, a.e i j * b' i j
          aAxis := fun i => ∑ j, a.e i j
          aTotal := ∑ i, ∑ j, a.e i j
          bAxis := fun i => ∑ j, b' i j
          bTotal := ∑ i, ∑ j, b' i j }
        varA := if returnVarTerms then some (∑ i, ∑ j, a.e i j * a.e i j) else none
        varB := if returnVarTerms then some (∑ i, ∑ j, b' i j * b' i j) else none
        kinds := ⟨objKind x y, objKind x y, objKind x y, objKind x y⟩ }
    else PyM.throw .valueError

/-- Is one of the two arrays not `float64`? The compiled implementations have explicit `float64`
signatures and raise `TypeError` for anything else (dcor/_dcor_internals_numba.py:18-23). -/
def notFloat64 (x y : Arr) : Bool :=
  !(x.dtype == .float64 && y.dtype == .float64)

/-- `_distance_covariance_sqr_terms_avl_impl[_compiled]`, dcor/_fast_dcov_avl.py:314-414 with the
assertions of lines 211-212. `x * y` (line 229) raises `TypeError` for a `Decimal` and a float. -/
noncomputable def avlImpl (env : Env) (compiled : Bool) (x y : Arr) (xv yv : Vec1)
    (returnVarTerms : Bool) : Except PyErr Terms := do
  if compiled && notFloat64 x y then throw PyErr.typeError
  if ¬ (xv.n > 3) then throw PyErr.assertionError
  if h : xv.n = yv.n then
    let y' : Fin xv.n → ℝ := fun i => yv.v (Fin.cast h i)
    if decimalWithFloat x y then throw PyErr.typeError
    let t ← avlTermsImpl compiled (env.argsort compiled) xv.v y'
    pure {
      n := xv.n
      core := t
      varA := if returnVarTerms then some (varTerm xv.v) else none
      varB := if returnVarTerms then some (varTerm y') else none
      kinds := if compiled then ⟨.python, .numpy, .python, .python⟩
               else ⟨objKind x y, objKind x y, objKind x y, objKind x y⟩ }
  else throw PyErr.assertionError

open Classical in
/-- `_distance_covariance_sqr_terms_mergesort_impl[_compiled]`,
dcor/_fast_dcov_mergesort.py:215-264, with its dtype behaviour: `y[...].item()` (line 96) and
`d.item()` (line 174) do not exist on `Fraction`/`Decimal`; `weight_sums` has `y`'s dtype (line 47), so the
in-place addition of lines 103-106 raises `TypeError` when `y` is integral and `x` is not, or
`x` is an object array. `x * y` (line 153) raises `TypeError` for a `Decimal` and a float. A longer `y` is silently truncated by `y[ordered_indexes]` (line 240); a
shorter one is an `IndexError`, or an unchecked read when compiled. `sums[-1]` fails on empty input. -/
noncomputable def mergesortImpl (env : Env) (compiled : Bool) (x y : Arr) (xv yv : Vec1)
    (returnVarTerms : Bool) : Except PyErr Terms := do
  if compiled && notFloat64 x y then throw PyErr.typeError
  if h : xv.n ≤ yv.n then
    if decimalWithFloat x y && xv.n != 0 then throw PyErr.typeError
    if y.dtype.isObject then throw PyErr.attributeError
    let y' : Fin xv.n → ℝ := fun i => yv.v (Fin.castLE h i)
    if compiled && xv.n == 0 then throw PyErr.undefinedBehaviour
    let (t, updates) ← mergesortTermsImpl (fun a b : ℝ => decide (a ≥ b)) (env.argsort compiled)
      xv.v y'
    if x.dtype.isObject then
      if updates > 0 then throw PyErr.typeError else throw PyErr.attributeError
    if y.dtype = .int64 ∧ x.dtype ≠ .int64 ∧ updates > 0 then throw PyErr.typeError
    pure {
      n := xv.n
      core := t
      varA := if returnVarTerms then some (varTerm xv.v) else none
      varB := if returnVarTerms then some (varTerm y') else none
      kinds := if compiled then ⟨.python, .numpy, .python, .python⟩
               else ⟨.python, .numpy, .numpy, .numpy⟩ }
  else throw (if compiled then PyErr.undefinedBehaviour else PyErr.indexError)

/-- The `for impl in impls_dict[compile_mode]` loop, dcor/_fast_dcov_avl.py:543-560 and
dcor/_fast_dcov_mergesort.py:402-419. If every implementation failed with `TypeError` the function
falls off the end and returns `None`; the caller then fails with `TypeError` when it slices or
unpacks it (dcor/_dcor.py:235 and 252-266). -/
def tryImpls (w : Warn) (isAuto : Bool) : List (Except PyErr Terms) → PyM Terms
  | [] => PyM.throw .typeError
  | impl :: rest =>
    match impl with
    | .ok t => PyM.pure t
    | .error .typeError =>
      if isAuto then do PyM.warn w; tryImpls w isAuto rest
      else PyM.throw .typeError
    | .error e => PyM.throw e

/-- The implementations to try for a compile mode (`impls_dict`, dcor/_fast_dcov_avl.py:459-470 and
dcor/_fast_dcov_mergesort.py:318-329), as `compiled` flags. -/
def implsDict : CompileMode → Option (List Bool)
  | .auto => some [true, false]
  | .noCompile => some [false]
  | .compileCpu => some [true]
  | .compileParallel => none

/-- Common body of `_distance_covariance_sqr_terms_avl` (dcor/_fast_dcov_avl.py:513-560) and
`_distance_covariance_sqr_terms_mergesort` (dcor/_fast_dcov_mergesort.py:372-419). -/
noncomputable def fastTerms (w : Warn) (impl : Bool → Vec1 → Vec1 → Except PyErr Terms)
    (x y : Arr) (exponent : ℝ) (cm : CompileMode) : PyM Terms := do
  if exponent ≠ 1 then PyM.throw .valueError
  else do
    let xv ← PyM.lift (transformTo1d x.data)
    let yv ← PyM.lift (transformTo1d y.data)
    if commonNs x.ns y.ns ≠ .numpy then PyM.throw .valueError
    else match implsDict cm with
      | none => PyM.throw .notImplementedError
      | some l => tryImpls w (cm == .auto) (l.map (fun c => impl c xv yv))

/-- `_distance_covariance_sqr_terms_avl`, dcor/_fast_dcov_avl.py:513-560. -/
noncomputable def dcovTermsAvl (env : Env) (x y : Arr) (exponent : ℝ) (cm : CompileMode)
    (returnVarTerms : Bool) : PyM Terms :=
  fastTerms .fallbackAvl (fun c xv yv => avlImpl env c x y xv yv returnVarTerms) x y exponent cm

/-- `_distance_covariance_sqr_terms_mergesort`, dcor/_fast_dcov_mergesort.py:372-419. -/
noncomputable def dcovTermsMergesort (env : Env) (x y : Arr) (exponent : ℝ) (cm : CompileMode)
    (returnVarTerms : Bool) : PyM Terms :=
  fastTerms .fallbackMergesort (fun c xv yv => mergesortImpl env c x y xv yv returnVarTerms)
    x y exponent cm

/-- `_is_random_variable`, dcor/_dcor.py:316-324. -/
def isRandomVariable (x : Arr) : Bool :=
  match x.data with
  | .vec _ _ => true
  | .mat _ p _ => p == 1
  | .nd _ d1 _ _ => d1 == 1

/-- `_can_use_fast_algorithm`, dcor/_dcor.py:327-341. -/
noncomputable def canUseFastAlgorithm (x y : Arr) (exponent : ℝ) : Bool :=
  isRandomVariable x && isRandomVariable y && decide (x.shape0 > 3) && decide (y.shape0 > 3)
    && decide (exponent = 1)

/-- `_dcov_terms_auto`, dcor/_dcor.py:176-205. -/
noncomputable def dcovTermsAuto (env : Env) (x y : Arr) (exponent : ℝ) (cm : CompileMode)
    (returnVarTerms : Bool) : PyM Terms :=
  if commonNs x.ns y.ns = .numpy ∧ canUseFastAlgorithm x y exponent then
    dcovTermsAvl env x y exponent cm returnVarTerms
  else dcovTermsNaive env x y exponent cm returnVarTerms

/-- `DistanceCovarianceMethod.value.terms`, dcor/_dcor.py:383-410. -/
noncomputable def dcovTerms (env : Env) : Method → Arr → Arr → ℝ → CompileMode → Bool → PyM Terms
  | .auto => dcovTermsAuto env
  | .naive => dcovTermsNaive env
  | .avl => dcovTermsAvl env
  | .mergesort => dcovTermsMergesort env

/-- `_DcovAlgorithmInternals.dcov_sqr`, dcor/_dcor.py:217-238. -/
noncomputable def dcovSqr (env : Env) (m : Method) (x y : Arr) (exponent : ℝ) (cm : CompileMode)
    (biasCorrected : Bool) : PyM (FP ℝ) := do
  let t ← dcovTerms env m x y exponent cm false
  PyM.lift (dcovFromTerms t.kinds.mean t.kinds.axis t.kinds.total t.core.meanProd t.core.aAxis
    t.core.aTotal t.core.bAxis t.core.bTotal biasCorrected)

/-- `Stats`, dcor/_dcor.py:47-56. -/
structure Stats where
  covarianceXY : FP ℝ
  correlationXY : FP ℝ
  varianceX : FP ℝ
  varianceY : FP ℝ

/-- `_DcovAlgorithmInternals.stats_sqr`, dcor/_dcor.py:240-313. The terms always have `x.shape[0]`
rows. For a `Decimal` and an integer sample one variance is a `Decimal` and the other a float, which
cannot be multiplied (line 299). -/
noncomputable def statsSqr (env : Env) (m : Method) (x y : Arr) (exponent : ℝ) (cm : CompileMode)
    (biasCorrected : Bool) : PyM Stats := do
  let t ← dcovTerms env m x y exponent cm true
  let c := t.core
  let k := t.kinds
  match t.varA, t.varB with
  | some va, some vb => do
    let cov ← PyM.lift (dcovFromTerms k.mean k.axis k.total c.meanProd c.aAxis c.aTotal c.bAxis
      c.bTotal biasCorrected)
    let vx ← PyM.lift (dcovFromTerms k.var k.axis k.total va c.aAxis c.aTotal c.aAxis
      c.aTotal biasCorrected)
    let vy ← PyM.lift (dcovFromTerms k.var k.axis k.total vb c.bAxis c.bTotal c.bAxis
      c.bTotal biasCorrected)
    if mixedDecimal x y && t.n != 0 then PyM.throw .typeError
    else do
    let denominator := sqrtClip (FP.abs (vx * vy))
    let corr := if denominator.IsZero then .fin 0 else cov / denominator
    PyM.pure ⟨cov, corr, vx, vy⟩
  | _, _ => PyM.throw .typeError

/-- Optional arguments of the public functions. -/
structure Opts where
  exponent : ℝ := 1
  method : MethodLike := .enum .auto
  compileMode : CompileMode := .auto

/-- `distance_covariance_sqr`, dcor/_dcor.py:440-497. -/
noncomputable def distanceCovarianceSqr (env : Env) (x y : Arr) (o : Opts := {}) :
    PyM (FP ℝ) := do
  let m ← PyM.lift (toAlgorithm env o.method)
  dcovSqr env m x y o.exponent o.compileMode false

/-- `u_distance_covariance_sqr`, dcor/_dcor.py:500-558. -/
noncomputable def uDistanceCovarianceSqr (env : Env) (x y : Arr) (o : Opts := {}) :
    PyM (FP ℝ) := do
  let m ← PyM.lift (toAlgorithm env o.method)
  dcovSqr env m x y o.exponent o.compileMode true

/-- `distance_covariance`, dcor/_dcor.py:561-619. -/
noncomputable def distanceCovariance (env : Env) (x y : Arr) (o : Opts := {}) : PyM (FP ℝ) := do
  let c ← distanceCovarianceSqr env x y o
  PyM.pure (sqrtClip c)

/-- `distance_stats_sqr`, dcor/_dcor.py:622-695. -/
noncomputable def distanceStatsSqr (env : Env) (x y : Arr) (o : Opts := {}) : PyM Stats := do
  let m ← PyM.lift (toAlgorithm env o.method)
  statsSqr env m x y o.exponent o.compileMode false

/-- `u_distance_stats_sqr`, dcor/_dcor.py:698-775. -/
noncomputable def uDistanceStatsSqr (env : Env) (x y : Arr) (o : Opts := {}) : PyM Stats := do
  let m ← PyM.lift (toAlgorithm env o.method)
  statsSqr env m x y o.exponent o.compileMode true

/-- `distance_stats`, dcor/_dcor.py:778-856. -/
noncomputable def distanceStats (env : Env) (x y : Arr) (o : Opts := {}) : PyM Stats := do
  let s ← distanceStatsSqr env x y o
  PyM.pure ⟨sqrtClip s.covarianceXY, sqrtClip s.correlationXY, sqrtClip s.varianceX,
    sqrtClip s.varianceY⟩

/-- `distance_correlation_sqr`, dcor/_dcor.py:859-916. -/
noncomputable def distanceCorrelationSqr (env : Env) (x y : Arr) (o : Opts := {}) :
    PyM (FP ℝ) := do
  let m ← PyM.lift (toAlgorithm env o.method)
  let s ← statsSqr env m x y o.exponent o.compileMode false
  PyM.pure s.correlationXY

/-- `u_distance_correlation_sqr`, dcor/_dcor.py:919-979. -/
noncomputable def uDistanceCorrelationSqr (env : Env) (x y : Arr) (o : Opts := {}) :
    PyM (FP ℝ) := do
  let m ← PyM.lift (toAlgorithm env o.method)
  let s ← statsSqr env m x y o.exponent o.compileMode true
  PyM.pure s.correlationXY

/-- `distance_correlation`, dcor/_dcor.py:982-1040. -/
noncomputable def distanceCorrelation (env : Env) (x y : Arr) (o : Opts := {}) :
    PyM (FP ℝ) := do
  let c ← distanceCorrelationSqr env x y o
  PyM.pure (sqrtClip c)

end Dcor

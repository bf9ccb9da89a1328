/-
Model of dcor/_rowwise.py and of the row-wise part of dcor/_fast_dcov_avl.py.

A list of samples (or an array with one more dimension) is a `List Arr`. NumPy's `asarray` is assumed to
be able to convert arrays of other libraries.
-/
import Verif.Model.Homogeneity

namespace Dcor

/-- `RowwiseMode`, dcor/_utils.py:54-72. -/
inductive RowwiseMode where
  | auto
  | naive
  | optimized
  deriving DecidableEq, Repr

/-- The functions that can be passed to `rowwise`: the six functions with a `rowwise_function` attribute
(dcor/_rowwise.py:37-102), or any other function. -/
inductive RowFn where
  | dcovSqr
  | uDcovSqr
  | dcov
  | dcorSqr
  | uDcorSqr
  | dcor
  | other (f : Arr → Arr → PyM (FP ℝ))

/-- Call of the function with the keyword arguments. -/
noncomputable def RowFn.call (env : Env) (o : Opts) : RowFn → Arr → Arr → PyM (FP ℝ)
  | .dcovSqr, x, y => distanceCovarianceSqr env x y o
  | .uDcovSqr, x, y => uDistanceCovarianceSqr env x y o
  | .dcov, x, y => distanceCovariance env x y o
  | .dcorSqr, x, y => distanceCorrelationSqr env x y o
  | .uDcorSqr, x, y => uDistanceCorrelationSqr env x y o
  | .dcor, x, y => distanceCorrelation env x y o
  | .other f, x, y => f x y

/-- `x.shape`. -/
def Arr.shape (x : Arr) : List ℕ :=
  match x.data with
  | .vec n _ => [n]
  | .mat n p _ => [n, p]
  | .nd d0 d1 d2 rest => d0 :: d1 :: d2 :: rest

/-- `np.asarray` of a list of arrays raises `ValueError` unless all have the same shape. -/
def checkHomogeneous : List Arr → Except PyErr Unit
  | [] => .ok ()
  | a :: rest => if rest.all fun b => b.shape == a.shape then .ok () else .error .valueError

/-- The rows of `np.asarray(x)` after lines 622-630 of dcor/_fast_dcov_avl.py: vectors, or matrices with
one column; anything else fails an assertion. -/
def rowVectors (l : List Arr) : Except PyErr (List Vec1) := l.mapM fun a => transformTo1d a.data

/-- The loop of the generalised universal function with signature `(n),(n),()->()`
(dcor/_fast_dcov_avl.py:575-587), with an output of the length of `x`: the core dimensions must agree; a
single row of `y` is used for all the rows of `x`. -/
def gufuncRows (xs ys : List Vec1) : Except PyErr (List (Vec1 × Vec1)) :=
  let pairs := if xs.length = ys.length then some (xs.zip ys)
    else match ys with
      | [y] => some (xs.map fun x => (x, y))
      | _ => none
  match pairs with
  | none => .error .valueError
  | some l => if l.all fun p => p.1.n == p.2.n then .ok l else .error .valueError

/-- The type of integers in compiled code is `int64`: arithmetic is modulo `2 ^ 64`. -/
def wrapInt64 (z : ℤ) : ℤ := z.bmod (2 ^ 64)

/-- `_dcov_from_terms_compiled`, dcor/_dcor_internals_numba.py:29-40: `_dcov_from_terms`
(dcor/_dcor_internals.py:176-199) with a number of samples of type `int64`. The products and powers of it
(lines 192-193 and 196-197) wrap around. Compiled code raises `ZeroDivisionError`. -/
noncomputable def dcovFromTermsCompiled {n : ℕ} (meanProd : ℝ) (aAxis : Fin n → ℝ) (aTotal : ℝ)
    (bAxis : Fin n → ℝ) (bTotal : ℝ) (biasCorrected : Bool) : Except PyErr (FP ℝ) := do
  let first ← npDiv .python (.fin meanProd) n
  let second : FP ℝ := ∑ i, (.fin (aAxis i) / .fin (n : ℝ)) * .fin (bAxis i)
  let third0 ← npDiv .python (.fin aTotal) n
  let third := third0 * .fin bTotal
  if biasCorrected then do
    let first ← npDiv .python first ((n : ℤ) - 3)
    let second ← npDiv .python second (wrapInt64 (((n : ℤ) - 2) * ((n : ℤ) - 3)))
    let third ← npDiv .python third (wrapInt64 (((n : ℤ) - 1) * ((n : ℤ) - 2) * ((n : ℤ) - 3)))
    pure (first - .fin 2 * second + third)
  else do
    let first ← npDiv .python first (n : ℤ)
    let second ← npDiv .python second (wrapInt64 ((n : ℤ) ^ 2))
    let third ← npDiv .python third (wrapInt64 ((n : ℤ) ^ 3))
    pure (first - .fin 2 * second + third)

/-- `_rowwise_distance_covariance_sqr_avl_generic_internal`, dcor/_fast_dcov_avl.py:567-573, calling
`_distance_covariance_sqr_avl_impl_compiled` (dcor/_dcor_internals_numba.py:48-90) on rows converted to
`float64`. Exceptions in the kernel are propagated. -/
noncomputable def rowKernel (env : Env) (unbiased : Bool) (p : Vec1 × Vec1) : Except PyErr (FP ℝ) := do
  let t ← avlImpl env true ⟨.numpy, .float64, .vec p.1.n p.1.v⟩ ⟨.numpy, .float64, .vec p.2.n p.2.v⟩
    p.1 p.2 false
  dcovFromTermsCompiled t.core.meanProd t.core.aAxis t.core.aTotal t.core.bAxis t.core.bTotal unbiased

/-- `_rowwise_distance_covariance_sqr_avl_generic`, dcor/_fast_dcov_avl.py:607-640 (`none` is
`NotImplemented`). The exponent is not passed on by the callers. The output array has the dtype of `x`:
the conversion of the results to integers raises `TypeError`, and so do object arrays. -/
noncomputable def rowwiseAvl (env : Env) (xs ys : List Arr) (unbiased : Bool) (cm : CompileMode) :
    Except PyErr (Option (List (FP ℝ))) := do
  checkHomogeneous xs
  checkHomogeneous ys
  let xv ← rowVectors xs
  let yv ← rowVectors ys
  if cm = .noCompile then pure none
  else do
    let dx := joinDTypes (xs.map Arr.dtype)
    let dy := joinDTypes (ys.map Arr.dtype)
    if dx.isObject || dy.isObject || dx == .int64 then throw PyErr.typeError
    let rows ← gufuncRows xv yv
    let res ← rows.mapM (rowKernel env unbiased)
    pure (some res)

open Classical in
/-- `rowwise_distance_covariance_sqr`, dcor/_rowwise.py:18-34. A method given as a string is not equal
to a member of the enumeration. -/
noncomputable def rowwiseDcovSqr (env : Env) (unbiased : Bool) (xs ys : List Arr) (o : Opts) :
    Except PyErr (Option (List (FP ℝ))) :=
  match xs, ys with
  | x0 :: _, y0 :: _ =>
    if canUseFastAlgorithm x0 y0 o.exponent = false then .ok none
    else match o.method with
      | .enum .auto | .enum .avl => rowwiseAvl env xs ys unbiased o.compileMode
      | _ => .ok none
  | _, _ => .error .indexError

/-- `np.concatenate` of lists of arrays (dcor/_rowwise.py:64-65): the elements must have the same shape,
and get the common dtype. An empty list has the wrong number of dimensions. -/
def concatenateRows (l : List (List Arr)) : Except PyErr (List Arr) := do
  l.forM checkHomogeneous
  let all := l.flatten
  if l.any List.isEmpty && !all.isEmpty then throw PyErr.valueError
  checkHomogeneous all
  pure (all.map fun a => ⟨.numpy, joinDTypes (all.map Arr.dtype), a.data⟩)

open Classical in
/-- `corr_sqr[np.isnan(corr_sqr)] = 0`, dcor/_rowwise.py:78. -/
noncomputable def nanToZero (a : FP ℝ) : FP ℝ := if a = .nan then .fin 0 else a

/-- `rowwise_distance_correlation_sqr`, dcor/_rowwise.py:57-82. -/
noncomputable def rowwiseDcorSqr (env : Env) (unbiased : Bool) (xs ys : List Arr) (o : Opts) :
    Except PyErr (Option (List (FP ℝ))) := do
  let k := xs.length
  let cx ← concatenateRows [xs, xs, ys]
  let cy ← concatenateRows [ys, xs, ys]
  let r ← rowwiseDcovSqr env unbiased cx cy o
  match r with
  | none => pure none
  | some res =>
    let cov := res.take k
    let xStd := ((res.take (2 * k)).drop k).map sqrtClip
    let yStd := (res.drop (2 * k)).map sqrtClip
    pure (some ((cov.zip (xStd.zip yStd)).map fun p => nanToZero (p.1 / p.2.1 / p.2.2)))

/-- The attribute `rowwise_function`, dcor/_rowwise.py:37-102. -/
noncomputable def RowFn.rowwiseFunction (env : Env) :
    RowFn → Option (List Arr → List Arr → Opts → Except PyErr (Option (List (FP ℝ))))
  | .dcovSqr => some (rowwiseDcovSqr env false)
  | .uDcovSqr => some (rowwiseDcovSqr env true)
  | .dcov => some fun xs ys o => (rowwiseDcovSqr env false xs ys o).map fun r =>
      r.map fun l => l.map sqrtClip
  | .dcorSqr => some (rowwiseDcorSqr env false)
  | .uDcorSqr => some (rowwiseDcorSqr env true)
  | .dcor => some fun xs ys o => (rowwiseDcorSqr env false xs ys o).map fun r =>
      r.map fun l => l.map sqrtClip
  | .other _ => none

/-- The list comprehension at dcor/_rowwise.py:191-193. -/
noncomputable def rowwiseMap (env : Env) (f : RowFn) (xs ys : List Arr) (o : Opts) :
    PyM (List (FP ℝ)) :=
  (xs.zip ys).mapM fun p => f.call env o p.1 p.2

/-- `rowwise`, dcor/_rowwise.py:105-193. -/
noncomputable def rowwise (env : Env) (f : RowFn) (xs ys : List Arr)
    (mode : RowwiseMode := .auto) (o : Opts := {}) : PyM (List (FP ℝ)) := do
  let r ← if mode = .naive then PyM.pure none
    else match f.rowwiseFunction env with
      | none => PyM.pure none
      | some g => PyM.lift (g xs ys o)
  match r with
  | some l => PyM.pure l
  | none =>
    if mode = .optimized then PyM.throw .notImplementedError else rowwiseMap env f xs ys o

end Dcor

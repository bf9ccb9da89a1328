/-
Model of dcor/independence.py.
-/
import Verif.Model.Hypothesis
import Verif.Model.Partial

namespace Dcor

/-- `_distance_matrix_generic(x, centering=double_centered, exponent=...)`,
dcor/_dcor_internals.py:675-691, for an array that has been converted to two dimensions already. With
an empty object array the division of the total (the Python integer 0) by zero raises an exception. -/
noncomputable def doubleDistanceMatrix (env : Env) (ns : Namespace) (dt : DType) (x2 : Mat2)
    (exponent : ℝ) : PyM (FMat x2.n) := do
  checkValidDcovExponent exponent
  let a ← PyM.lift (pdist env ns dt x2 exponent)
  if dt.isObject = true ∧ x2.n = 0 then PyM.throw .zeroDivisionError
  else PyM.pure (doubleCentered (FMat.ofReal a))

/-- `statistic_function` of `distance_covariance_test`, dcor/independence.py:123-127. The product of
a `Decimal` and a float raises `TypeError`; the mean of `Decimal`s is a `Decimal`. -/
noncomputable def dcovTestStatistic (x y : Arr) {n : ℕ} (uy : FMat n) (m : FMat n) :
    Except PyErr Scalar :=
  if mixedDecimal x y && n != 0 then .error .typeError
  else .ok ⟨.fin (n : ℝ) * meanProduct m uy,
    if x.dtype = .decimal then .pyDecimal else .npFloat⟩

/-- `distance_covariance_test` up to the call of `_permutation_test_with_sym_matrix`,
dcor/independence.py:104-127. -/
noncomputable def dcovTestSetup (env : Env) (x y : Arr) (exponent : ℝ) :
    PyM (TestSetup (FP ℝ)) := do
  let x2 ← PyM.lift (transformTo2d x.data)
  let y2 ← PyM.lift (transformTo2d y.data)
  if h : x2.n = y2.n then do
    let ns := commonNs x.ns y.ns
    let ux ← doubleDistanceMatrix env ns x.dtype x2 exponent
    let uy ← doubleDistanceMatrix env ns y.dtype y2 exponent
    let uy' : FMat x2.n := fun i j => uy (Fin.cast h i) (Fin.cast h j)
    PyM.pure ⟨x2.n, ux, dcovTestStatistic x y uy'⟩
  else PyM.throw .valueError

/-- `distance_covariance_test`, dcor/independence.py:104-135. -/
noncomputable def distanceCovarianceTest {S : Type} (env : Env) (rng : Rng S) (x y : Arr)
    (numResamples : ℤ := 0) (exponent : ℝ := 1) (randomState : RandomLike S)
    (nJobs : Option ℤ := some 1) : PyM (HypothesisTest × S) :=
  (dcovTestSetup env x y exponent).permutationTest rng numResamples randomState nJobs

/-- `statistic_function` of `partial_distance_covariance_test`, dcor/independence.py:226-230; `n0` is
`u_x.shape[0]`. For object arrays the result is a Python number. -/
noncomputable def partialTestStatistic (n0 : ℕ) (kind : NumKind) (pyz : FSq) {n : ℕ} (m : FMat n) :
    Except PyErr Scalar := do
  let v ← uProductB ⟨n, kind, m⟩ pyz
  pure ⟨.fin (n0 : ℝ) * v, if kind.join pyz.kind = .python then .pyFloat else .npFloat⟩

/-- `partial_distance_covariance_test` up to the call of `_permutation_test_with_sym_matrix`,
dcor/independence.py:212-230. -/
noncomputable def partialTestSetup (env : Env) (x y z : Arr) (exponent : ℝ) :
    PyM (TestSetup (FP ℝ)) := do
  let ux ← uDistanceMatrix env x exponent
  let uy ← uDistanceMatrix env y exponent
  let uz ← uDistanceMatrix env z exponent
  let denominator ← PyM.lift (uProductB uz uz)
  let pxz ← PyM.lift (uComplementaryProjectionB uz denominator ux)
  let pyz ← PyM.lift (uComplementaryProjectionB uz denominator uy)
  PyM.pure ⟨pxz.n, pxz.e, partialTestStatistic ux.n pxz.kind pyz⟩

/-- `partial_distance_covariance_test`, dcor/independence.py:212-238. -/
noncomputable def partialDistanceCovarianceTest {S : Type} (env : Env) (rng : Rng S) (x y z : Arr)
    (numResamples : ℤ := 0) (exponent : ℝ := 1) (randomState : RandomLike S)
    (nJobs : Option ℤ := some 1) : PyM (HypothesisTest × S) :=
  (partialTestSetup env x y z exponent).permutationTest rng numResamples randomState nJobs

/-- The statistic as a function of the number of observations and of the bias-corrected correlation,
dcor/independence.py:286-289. -/
noncomputable def tStatistic (n : ℕ) (bcdcor : FP ℝ) : FP ℝ :=
  let v : ℝ := (n : ℝ) * ((n : ℝ) - 3) / 2
  FP.npSqrt (.fin (v - 1)) * bcdcor / sqrtClip (.fin 1 - bcdcor * bcdcor)

/-- `distance_correlation_t_statistic`, dcor/independence.py:284-289. A NumPy float cannot be
multiplied by a `Decimal`. -/
noncomputable def distanceCorrelationTStatistic (env : Env) (x y : Arr) : PyM (FP ℝ) := do
  let bcdcor ← uDistanceCorrelationSqr env x y {}
  if x.dtype = .decimal ∨ y.dtype = .decimal then PyM.throw .typeError
  else PyM.pure (tStatistic x.shape0 bcdcor)

/-- `scipy.stats.t.cdf`: for each number of degrees of freedom a strictly increasing function with
values strictly between 0 and 1. -/
structure StudentT where
  cdf : ℝ → ℝ → ℝ
  strictMono : ∀ df, 0 < df → StrictMono (cdf df)
  pos : ∀ df, 0 < df → ∀ t, 0 < cdf df t
  lt_one : ∀ df, 0 < df → ∀ t, cdf df t < 1

/-- `1 - scipy.stats.t.cdf(t, df)`, dcor/independence.py:347, including infinities; invalid degrees of
freedom give NaN. -/
noncomputable def StudentT.pvalue (T : StudentT) (df : ℝ) (t : FP ℝ) : FP ℝ :=
  if df ≤ 0 then .nan
  else match t with
    | .fin a => .fin (1 - T.cdf df a)
    | .pinf => .fin 0
    | .ninf => .fin 1
    | .nan => .nan

/-- `distance_correlation_t_test`, dcor/independence.py:341-349: p-value and statistic. -/
noncomputable def distanceCorrelationTTest (env : Env) (T : StudentT) (x y : Arr) :
    PyM (FP ℝ × FP ℝ) := do
  let t ← distanceCorrelationTStatistic env x y
  let v : ℝ := (x.shape0 : ℝ) * ((x.shape0 : ℝ) - 3) / 2
  PyM.pure (T.pvalue (v - 1) t, t)

end Dcor

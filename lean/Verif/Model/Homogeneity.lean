/-
Model of dcor/homogeneity.py.
-/
import Verif.Model.Hypothesis

namespace Dcor

/-- `_energy_test_statistic_coefficient`, dcor/homogeneity.py:28-33 (Python integers). -/
noncomputable def energyCoefficient (n m : ℕ) : Except PyErr ℝ :=
  if n + m = 0 then .error .zeroDivisionError else .ok ((n : ℝ) * (m : ℝ) / ((n : ℝ) + (m : ℝ)))

/-- Product of a Python float and a scalar: a float cannot be multiplied by a `Decimal`. -/
noncomputable def scaleScalar (c : ℝ) (s : Scalar) : Except PyErr Scalar :=
  if s.kind = .pyDecimal then .error .typeError else .ok ⟨.fin c * s.val, s.kind⟩

/-- `_energy_test_statistic_from_distance_matrices`, dcor/homogeneity.py:36-54. -/
noncomputable def energyTestFromMatrices (env : Env) (xx yy xy : DMat) (n m : ℕ)
    (average : Option Average) (stat : EstLike) : Except PyErr Scalar := do
  let e ← energyFromMatrices env xx yy xy average stat
  let c ← energyCoefficient n m
  scaleScalar c e

/-- `energy_test_statistic`, dcor/homogeneity.py:111-125. -/
noncomputable def energyTestStatistic (env : Env) (x y : Arr) (o : EnergyOpts := {}) :
    PyM Scalar := do
  let x2 ← PyM.lift (transformTo2d x.data)
  let y2 ← PyM.lift (transformTo2d y.data)
  let c ← PyM.lift (energyCoefficient x2.n y2.n)
  let e ← energyDistance env ⟨commonNs x.ns y.ns, x.dtype, .mat x2.n x2.p x2.m⟩
    ⟨commonNs x.ns y.ns, y.dtype, .mat y2.n y2.p y2.m⟩ o
  PyM.lift (scaleScalar c e)

/-- The slice `distance[i0:i0+ni, j0:j0+nj]` of a square matrix; slices are cut off at the end. -/
def sliceMat {N : ℕ} (d : Fin N → Fin N → ℝ) (i0 ni j0 nj : ℕ) : Mat2 where
  n := min (i0 + ni) N - min i0 N
  p := min (j0 + nj) N - min j0 N
  m := fun a b => d ⟨min i0 N + a, by omega⟩ ⟨min j0 N + b, by omega⟩

/-- Body of the loop of `_energy_test_statistic_multivariate_from_distance_matrix`,
dcor/homogeneity.py:138-158, for the samples starting at `bi.1`, `bj.1` with sizes `bi.2`, `bj.2`. -/
noncomputable def pairEnergy (env : Env) {N : ℕ} (d : Fin N → Fin N → ℝ) (dec : Bool)
    (average : Option Average) (stat : EstLike) (bi bj : ℕ × ℕ) : Except PyErr Scalar :=
  energyTestFromMatrices env ⟨sliceMat d bi.1 bi.2 bi.1 bi.2, dec⟩
    ⟨sliceMat d bj.1 bj.2 bj.1 bj.2, dec⟩ ⟨sliceMat d bi.1 bi.2 bj.1 bj.2, dec⟩ bi.2 bj.2 average stat

/-- `energy = pairwise_energy` in the first iteration and `energy += pairwise_energy` afterwards,
dcor/homogeneity.py:160-164. -/
def accumulate (acc : Option Scalar) (e : Scalar) : Option Scalar :=
  match acc with
  | none => some e
  | some a => some ⟨a.val + e.val, e.kind⟩

/-- The inner loop `for j in range(i + 1, len(indexes))`, dcor/homogeneity.py:139-164. -/
noncomputable def innerPairs (env : Env) {N : ℕ} (d : Fin N → Fin N → ℝ) (dec : Bool)
    (average : Option Average) (stat : EstLike) (bi : ℕ × ℕ) :
    List (ℕ × ℕ) → Option Scalar → Except PyErr (Option Scalar)
  | [], acc => .ok acc
  | bj :: rest, acc => do
    let e ← pairEnergy env d dec average stat bi bj
    innerPairs env d dec average stat bi rest (accumulate acc e)

/-- The outer loop, dcor/homogeneity.py:138-164. -/
noncomputable def outerPairs (env : Env) {N : ℕ} (d : Fin N → Fin N → ℝ) (dec : Bool)
    (average : Option Average) (stat : EstLike) :
    List (ℕ × ℕ) → Option Scalar → Except PyErr (Option Scalar)
  | [], acc => .ok acc
  | bi :: rest, acc => do
    let acc ← innerPairs env d dec average stat bi rest acc
    outerPairs env d dec average stat rest acc

/-- `_energy_test_statistic_multivariate_from_distance_matrix`, dcor/homogeneity.py:128-166, with
the indexes and sizes given as a list of pairs; `energy` is unbound if there is no pair of samples. -/
noncomputable def energyMultivariate (env : Env) {N : ℕ} (d : Fin N → Fin N → ℝ) (dec : Bool)
    (blocks : List (ℕ × ℕ)) (average : Option Average) (stat : EstLike) : Except PyErr Scalar := do
  let r ← outerPairs env d dec average stat blocks none
  match r with
  | some e => pure e
  | none => throw PyErr.unboundLocalError

/-- `np.concatenate` of two matrices. -/
def appendMat (a b : Mat2) : Except PyErr Mat2 :=
  if h : a.p = b.p then
    .ok ⟨a.n + b.n, a.p, Fin.append a.m fun i c => b.m i (Fin.cast h c)⟩
  else .error .valueError

/-- `concat(samples)`, dcor/homogeneity.py:250-255; an empty list is rejected. -/
def concatMats : List Mat2 → Except PyErr Mat2
  | [] => .error .valueError
  | a :: rest => rest.foldlM appendMat a

/-- `sample_indexes`, dcor/homogeneity.py:257-259: zeros, with `cumsum(sizes)[:-1]` assigned from the
second position on. -/
def sampleIndexes (sizes : List ℕ) : List ℕ :=
  match sizes with
  | [] => []
  | _ => 0 :: (List.scanl (· + ·) 0 sizes).tail.dropLast

/-- Common namespace of several arrays. -/
def commonNsList (l : List Namespace) : Namespace :=
  if l.all (· == .other) then .other else .numpy

/-- dtype of the concatenation. -/
def joinDTypes : List DType → DType
  | [] => .float64
  | a :: rest => rest.foldl joinDType a

/-- Do some but not all of the arrays hold `Decimal`s? Then the distances raise `TypeError`: differences
between `Decimal`s and floats or `Fraction`s do not exist, and the square root of a matrix of mixed
`Decimal`s and integers fails, dcor/distances.py:31-38. (Empty arrays are treated alike.) -/
def mixedDecimalList (l : List DType) : Bool :=
  l.any (· == .decimal) && l.any (· != .decimal)

/-- `energy_test` up to the call of `_permutation_test_with_sym_matrix`,
dcor/homogeneity.py:243-279. -/
noncomputable def energyTestSetup (env : Env) (args : List Arr) (o : EnergyOpts) :
    PyM (TestSetup ℝ) := do
  let samples ← PyM.lift (args.mapM fun a => transformTo2d a.data)
  checkValidEnergyExponent o.exponent
  let sizes := samples.map Mat2.n
  let pooled ← PyM.lift (concatMats samples)
  let dtypes := args.map Arr.dtype
  if mixedDecimalList dtypes then PyM.throw .typeError
  else do
    let d ← PyM.lift (pdist env (commonNsList (args.map Arr.ns)) (joinDTypes dtypes) pooled o.exponent)
    PyM.pure ⟨pooled.n, d, fun m => energyMultivariate env m
      (joinDTypes dtypes == .decimal) ((sampleIndexes sizes).zip sizes) o.average o.stat⟩

/-- `energy_test`, dcor/homogeneity.py:243-287. -/
noncomputable def energyTest {S : Type} (env : Env) (rng : Rng S) (args : List Arr)
    (numResamples : ℤ := 0) (o : EnergyOpts := {}) (randomState : RandomLike S)
    (nJobs : Option ℤ := some 1) : PyM (HypothesisTest × S) :=
  (energyTestSetup env args o).permutationTest rng numResamples randomState nJobs

end Dcor

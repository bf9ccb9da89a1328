/-
Model of the array arguments accepted by the public functions, of the shape helpers of
dcor/_utils.py and of dcor/distances.py.
-/
import Verif.Model.Internals
import Mathlib.Analysis.SpecialFunctions.Pow.Real

namespace Dcor

/-- Array library an array belongs to: NumPy or one other array-API library. -/
inductive Namespace where
  | numpy
  | other
  deriving DecidableEq, Repr

/-- Element types. `fraction` and `decimal` are NumPy object arrays of `Fraction` / `Decimal`.
Unsigned integers are treated separately in `Verif/Model/IntWrap.lean`. -/
inductive DType where
  | float64
  | float32
  | int64
  | fraction
  | decimal
  deriving DecidableEq, Repr

/-- Object dtype. -/
def DType.isObject : DType → Bool
  | .fraction => true
  | .decimal => true
  | _ => false

/-- Shape and contents: a vector, a matrix, or an array with three or more dimensions (whose
contents never matter). 0-dimensional arrays are not modelled. -/
inductive ArrData where
  | vec (n : ℕ) (v : Fin n → ℝ)
  | mat (n p : ℕ) (m : Fin n → Fin p → ℝ)
  | nd (d0 d1 d2 : ℕ) (rest : List ℕ)

/-- An array argument. -/
structure Arr where
  ns : Namespace
  dtype : DType
  data : ArrData

/-- `x.shape[0]`. -/
def Arr.shape0 (x : Arr) : ℕ :=
  match x.data with
  | .vec n _ => n
  | .mat n _ _ => n
  | .nd d0 _ _ _ => d0

/-- A matrix with its shape. -/
structure Mat2 where
  n : ℕ
  p : ℕ
  m : Fin n → Fin p → ℝ

/-- A vector with its length. -/
structure Vec1 where
  n : ℕ
  v : Fin n → ℝ

/-- `array_namespace(x, y)`, dcor/_utils.py:74-86. Mixing libraries makes array_api_compat raise
`TypeError`, which is turned into the NumPy namespace (the deprecation warning is not
modelled). -/
def commonNs (a b : Namespace) : Namespace :=
  if a = .other ∧ b = .other then .other else .numpy

/-- `_transform_to_2d` for one array, dcor/_utils.py:131-144. -/
def transformTo2d (d : ArrData) : Except PyErr Mat2 :=
  match d with
  | .vec n v => .ok ⟨n, 1, fun i _ => v i⟩
  | .mat n p m => .ok ⟨n, p, m⟩
  | .nd _ _ _ _ => .error .assertionError

/-- `_transform_to_1d` for one array, dcor/_utils.py:114-128. -/
def transformTo1d (d : ArrData) : Except PyErr Vec1 :=
  match d with
  | .vec n v => .ok ⟨n, v⟩
  | .mat n 1 m => .ok ⟨n, fun i => m i 0⟩
  | .mat _ _ _ => .error .assertionError
  | .nd _ _ _ _ => .error .assertionError

/-- Library behaviour that dcor relies on. -/
structure Env where
  /-- `np.argsort`; the flag says whether it is numba's version (ties may be broken
  differently). -/
  argsort : Bool → {n : ℕ} → (Fin n → ℝ) → Equiv.Perm (Fin n)
  /-- `argsort` sorts. -/
  argsort_monotone : ∀ (c : Bool) {n : ℕ} (x : Fin n → ℝ), Monotone fun i => x (argsort c x i)
  /-- Is `array_namespace(ndarray) == np`? (Depends on the array_api_compat version; it selects
  the SciPy path in dcor/_utils.py:156.) -/
  compatIsNp : Bool
  /-- `str.upper`. -/
  upper : String → String

/-- `_can_be_numpy_double`, dcor/_utils.py:147-167. -/
def canBeNumpyDouble (env : Env) (ns : Namespace) (dt : DType) : Bool :=
  if ns = .numpy ∧ env.compatIsNp then
    match dt with
    | .float64 | .float32 | .int64 => true
    | .fraction | .decimal => false
  else false

/-- Does `squared_norms ** exponent` also fail, dcor/distances.py:37-38? For `Decimal` the power
`exponent / 2` (a float) raises `TypeError`, and the second attempt works for integral exponents
only (given as Python ints). -/
def naivePowerFails (dt : DType) (exponent : ℝ) : Prop :=
  dt = .decimal ∧ ¬ ∃ k : ℤ, exponent = k

/-- The function applied to squared norms on the array-API path, dcor/distances.py:35-38; the
second branch is the `_sqrt` fallback. -/
noncomputable def naivePower (dt : DType) (exponent : ℝ) (s : ℝ) : ℝ :=
  if dt = .decimal then Real.sqrt (if s ^ exponent < 0 then 0 else s ^ exponent)
  else s ^ (exponent / 2)

open Classical in
/-- `_cdist_naive`, dcor/distances.py:23-38: entry `(k, l)` of the result is the distance between
`y[k]` and `x[l]`. Columns are broadcast if one of the arrays has a single column. -/
noncomputable def cdistNaive (dt : DType) (x y : Mat2) (exponent : ℝ) :
    Except PyErr (Fin y.n → Fin x.n → ℝ) := do
  let sq : Fin y.n → Fin x.n → ℝ ←
    if h : x.p = y.p then
      pure (fun k l => ∑ c : Fin x.p, (x.m l c - y.m k (Fin.cast h c)) ^ 2)
    else if h1 : x.p = 1 then
      pure (fun k l => ∑ c : Fin y.p, (x.m l (Fin.cast h1.symm 0) - y.m k c) ^ 2)
    else if h1 : y.p = 1 then
      pure (fun k l => ∑ c : Fin x.p, (x.m l c - y.m k (Fin.cast h1.symm 0)) ^ 2)
    else throw PyErr.valueError
  if naivePowerFails dt exponent then throw PyErr.typeError
  pure (fun k l => naivePower dt exponent (sq k l))

/-- `_cdist_scipy`, dcor/distances.py:60-76: entry `(i, j)` is the distance between `x[i]` and
`y[j]`. SciPy rejects different numbers of columns with `ValueError`. -/
noncomputable def cdistScipy (x y : Mat2) (exponent : ℝ) :
    Except PyErr (Fin x.n → Fin y.n → ℝ) :=
  if h : x.p = y.p then
    let sq := fun i j => ∑ c : Fin x.p, (x.m i c - y.m j (Fin.cast h c)) ^ 2
    .ok (fun i j => if exponent = 1 then Real.sqrt (sq i j) else (sq i j) ^ (exponent / 2))
  else .error .valueError

/-- `_pdist_scipy`, dcor/distances.py:41-57. -/
noncomputable def pdistScipy (x : Mat2) (exponent : ℝ) : Fin x.n → Fin x.n → ℝ :=
  let sq := fun i j => ∑ c : Fin x.p, (x.m i c - x.m j c) ^ 2
  fun i j => if exponent = 1 then Real.sqrt (sq i j) else (sq i j) ^ (exponent / 2)

/-- `_pdist`, dcor/distances.py:79-91. -/
noncomputable def pdist (env : Env) (ns : Namespace) (dt : DType) (x : Mat2) (exponent : ℝ) :
    Except PyErr (Fin x.n → Fin x.n → ℝ) :=
  if canBeNumpyDouble env ns dt then .ok (pdistScipy x exponent)
  else cdistNaive dt x x exponent

/-- dtype of the result of arithmetic between two arrays, as far as `cdistNaive` needs it. -/
def joinDType (a b : DType) : DType :=
  if a = .decimal ∨ b = .decimal then .decimal
  else if a = .fraction ∨ b = .fraction then .fraction
  else if a = .int64 ∧ b = .int64 then .int64
  else if a = .float32 ∧ b = .float32 then .float32
  else .float64

/-- Is one dtype `Decimal` and the other one that cannot be combined with it (floats and
`Fraction`; integers can)? -/
def decimalClash (a b : DType) : Bool :=
  ((a == .decimal) != (b == .decimal)) && !(a == .int64 || b == .int64)

/-- `_cdist`, dcor/distances.py:94-106. The subtraction in `_cdist_naive` (line 31) raises `TypeError`
for a `Decimal` and a float. -/
noncomputable def cdist (env : Env) (nsx nsy : Namespace) (dx dy : DType) (x y : Mat2)
    (exponent : ℝ) : Except PyErr Mat2 :=
  if canBeNumpyDouble env nsx dx && canBeNumpyDouble env nsy dy then do
    let d ← cdistScipy x y exponent
    pure ⟨x.n, y.n, d⟩
  else do
    let d ← cdistNaive (joinDType dx dy) x y exponent
    if decimalClash dx dy && x.n != 0 && y.n != 0 then throw PyErr.typeError
    pure ⟨y.n, x.n, d⟩

/-- A square matrix with its size. -/
structure SqMat where
  n : ℕ
  e : Fin n → Fin n → ℝ

/-- `pairwise_distances(x, exponent=...)`, dcor/distances.py:156-158. -/
noncomputable def pairwiseDistances1 (env : Env) (x : Arr) (exponent : ℝ) :
    Except PyErr SqMat := do
  let x2 ← transformTo2d x.data
  let d ← pdist env x.ns x.dtype x2 exponent
  pure ⟨x2.n, d⟩

/-- `pairwise_distances(x, y, exponent=...)` with `y` a different object from `x`,
dcor/distances.py:160-161. -/
noncomputable def pairwiseDistances2 (env : Env) (x y : Arr) (exponent : ℝ) :
    Except PyErr Mat2 := do
  let x2 ← transformTo2d x.data
  let y2 ← transformTo2d y.data
  let ns := commonNs x.ns y.ns
  cdist env ns ns x.dtype y.dtype x2 y2 exponent

end Dcor

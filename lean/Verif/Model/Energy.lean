/-
Model of dcor/_energy.py.
-/
import Verif.Model.Dcor

namespace Dcor

/-- `EstimationStatistic`, dcor/_energy.py:17-60. -/
inductive EstStat where
  | u
  | v
  deriving DecidableEq, Repr

/-- `EstimationStatisticLike`, dcor/_energy.py:63. -/
inductive EstLike where
  | enum (e : EstStat)
  | name (s : String)

/-- `EstimationStatistic.from_string`, dcor/_energy.py:20-48. -/
def EstStat.fromString (env : Env) (s : String) : Except PyErr EstStat :=
  if env.upper s = "U" then .ok .u
  else if env.upper s = "V" then .ok .v
  else if env.upper s = "U_STATISTIC" then .ok .u
  else if env.upper s = "V_STATISTIC" then .ok .v
  else .error .keyError

/-- The conversion of strings at dcor/_energy.py:110-111. -/
def EstLike.resolve (env : Env) : EstLike → Except PyErr EstStat
  | .enum e => .ok e
  | .name s => EstStat.fromString env s

/-- `_check_valid_energy_exponent`, dcor/_energy.py:66-75. -/
noncomputable def checkValidEnergyExponent (exponent : ℝ) : PyM Unit :=
  if 0 < exponent ∧ exponent < 2 then PyM.pure () else PyM.warn .energyExponent

/-- `_get_flat_upper_matrix`, dcor/_energy.py:78-85: the entries `(i, j)` with `i + k ≤ j`, in
row-major order. -/
def flatUpper (x : Mat2) (k : ℕ) : List ℝ :=
  (List.finRange x.n).flatMap fun (i : Fin x.n) =>
    ((List.finRange x.p).filter fun (j : Fin x.p) => decide ((i : ℕ) + k ≤ (j : ℕ))).map (x.m i)

/-- What an `average` function is applied to: a matrix of distances, or the flattened upper
triangle of one. -/
inductive AvgArg where
  | mat (d : Mat2)
  | flat (l : List ℝ)

/-- `xp.mean`. The mean of an empty array is NaN. -/
noncomputable def meanOf : AvgArg → FP ℝ
  | .mat d => .fin (∑ i, ∑ j, d.m i j) / .fin ((d.n : ℝ) * (d.p : ℝ))
  | .flat l => .fin l.sum / .fin (l.length : ℝ)

/-- Type of a scalar result: a NumPy (or other array library) float, a Python float, or a
`Decimal`. -/
inductive ScalarKind where
  | npFloat
  | pyFloat
  | pyDecimal
  deriving DecidableEq, Repr

/-- A scalar result. -/
structure Scalar where
  val : FP ℝ
  kind : ScalarKind

/-- A user supplied `average` function: a total function, with the type of its results. -/
structure Average where
  apply : AvgArg → FP ℝ
  kind : ScalarKind

/-- A matrix of distances; `dec` says whether its elements are `Decimal`s. -/
structure DMat where
  mat : Mat2
  dec : Bool

/-- Kind of the scalars produced by `average`; NumPy's mean of an object array of floats is a NumPy
float, that of an array of `Decimal` is a `Decimal`. Combining both raises `TypeError` (the mean of an
empty array of `Decimal`, which is a NumPy NaN, is treated like the others). -/
def averageKind (average : Option Average) (xx yy xy : DMat) : Except PyErr ScalarKind :=
  match average with
  | some a => .ok a.kind
  | none =>
    if xx.dec && yy.dec && xy.dec then .ok .pyDecimal
    else if xx.dec || yy.dec || xy.dec then .error .typeError
    else .ok .npFloat

/-- The function that `average` stands for, dcor/_energy.py:113-114. -/
noncomputable def averageFun : Option Average → AvgArg → FP ℝ
  | some a => a.apply
  | none => meanOf

/-- The within-sample argument of `average`, dcor/_energy.py:116-119. -/
def withinArg (stat : EstStat) (d : DMat) : AvgArg :=
  match stat with
  | .u => .flat (flatUpper d.mat 1)
  | .v => .mat d.mat

/-- `_energy_distance_from_distance_matrices`, dcor/_energy.py:88-128. -/
noncomputable def energyFromMatrices (env : Env) (xx yy xy : DMat) (average : Option Average)
    (stat : EstLike) : Except PyErr Scalar := do
  let stat ← stat.resolve env
  let kind ← averageKind average xx yy xy
  let avg := averageFun average
  pure ⟨.fin 2 * avg (.mat xy.mat) - avg (withinArg stat xx) - avg (withinArg stat yy), kind⟩

/-- Optional arguments of the energy functions. -/
structure EnergyOpts where
  exponent : ℝ := 1
  average : Option Average := none
  stat : EstLike := .enum .v

/-- `energy_distance`, dcor/_energy.py:191-209. If both samples are the same two-dimensional array
object, the third matrix is computed by `_pdist` instead of `_cdist`, which gives the same values. -/
noncomputable def energyDistance (env : Env) (x y : Arr) (o : EnergyOpts := {}) : PyM Scalar := do
  let x2 ← PyM.lift (transformTo2d x.data)
  let y2 ← PyM.lift (transformTo2d y.data)
  checkValidEnergyExponent o.exponent
  let ns := commonNs x.ns y.ns
  let xx ← PyM.lift (pdist env ns x.dtype x2 o.exponent)
  let yy ← PyM.lift (pdist env ns y.dtype y2 o.exponent)
  let xy ← PyM.lift (cdist env ns ns x.dtype y.dtype x2 y2 o.exponent)
  PyM.lift (energyFromMatrices env ⟨⟨x2.n, x2.n, xx⟩, x.dtype == .decimal⟩
    ⟨⟨y2.n, y2.n, yy⟩, y.dtype == .decimal⟩
    ⟨xy, joinDType x.dtype y.dtype == .decimal⟩ o.average o.stat)

end Dcor

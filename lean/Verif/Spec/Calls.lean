/-
Specification: which calls of the public functions are supposed to return a value, and what
data an array argument stands for.
-/
import Verif.Model.Dcor

namespace Dcor

/-- The array stands for the sample `X` of `n` observations in `ℝ^p`: it is a vector (`p = 1`)
or an `n × p` matrix. -/
inductive Holds : ArrData → (n p : ℕ) → (Fin n → Fin p → ℝ) → Prop
  | vec (n : ℕ) (v : Fin n → ℝ) : Holds (.vec n v) n 1 (fun i _ => v i)
  | mat (n p : ℕ) (m : Fin n → Fin p → ℝ) : Holds (.mat n p m) n p m

/-- Calls that the naive method is supposed to handle: no compilation requested, a non-negative
exponent (division by zero distances is not modelled) and, for arrays of `Decimal` (which cannot be
combined with another dtype), an integral exponent. -/
def NaiveOk (x y : Arr) (exponent : ℝ) (cm : CompileMode) : Prop :=
  (cm = .auto ∨ cm = .noCompile) ∧
  ((x.dtype = .decimal ∨ y.dtype = .decimal) → ∃ k : ℤ, exponent = k) ∧
  0 ≤ exponent ∧ (x.dtype = .decimal ↔ y.dtype = .decimal)

/-- Calls that the AVL method is supposed to handle: NumPy arrays, at least four scalar
observations, exponent one; compilation cannot be forced for dtypes other than `float64`;
`Decimal` cannot be combined with another dtype. -/
def AvlOk (x y : Arr) (n p q : ℕ) (exponent : ℝ) (cm : CompileMode) : Prop :=
  exponent = 1 ∧ p = 1 ∧ q = 1 ∧ 3 < n ∧ (x.ns = .numpy ∨ y.ns = .numpy) ∧
  cm ≠ .compileParallel ∧
  (cm = .compileCpu → x.dtype = .float64 ∧ y.dtype = .float64) ∧
  (x.dtype = .decimal ↔ y.dtype = .decimal)

/-- Calls that the mergesort method handles: as for AVL but for any non-empty sample, and for
primitive dtypes that are not `y` integral with a non-integral `x`. -/
def MergesortOk (x y : Arr) (n p q : ℕ) (exponent : ℝ) (cm : CompileMode) : Prop :=
  exponent = 1 ∧ p = 1 ∧ q = 1 ∧ 0 < n ∧ (x.ns = .numpy ∨ y.ns = .numpy) ∧
  cm ≠ .compileParallel ∧
  (cm = .compileCpu → x.dtype = .float64 ∧ y.dtype = .float64) ∧
  x.dtype.isObject = false ∧ y.dtype.isObject = false ∧ (y.dtype = .int64 → x.dtype = .int64)

/-- Supported calls of a method on samples of `n` observations with `p` and `q` components. -/
def CallOk (m : Method) (x y : Arr) (n p q : ℕ) (exponent : ℝ) (cm : CompileMode) : Prop :=
  match m with
  | .naive => NaiveOk x y exponent cm
  | .avl => AvlOk x y n p q exponent cm
  | .mergesort => MergesortOk x y n p q exponent cm
  | .auto =>
    -- AVL if it applies to the shapes, naive otherwise
    if exponent = 1 ∧ p = 1 ∧ q = 1 ∧ 3 < n ∧ (x.ns = .numpy ∨ y.ns = .numpy) then
      AvlOk x y n p q exponent cm
    else NaiveOk x y exponent cm

/-- A supported call of one of the functions with `method` and `compile_mode` arguments on the
samples `X`, `Y` of `n` observations each. -/
structure Supported (env : Env) (x y : Arr) (o : Opts) {n p q : ℕ} (X : Fin n → Fin p → ℝ)
    (Y : Fin n → Fin q → ℝ) : Prop where
  hx : Holds x.data n p X
  hy : Holds y.data n q Y
  method : ∃ m, toAlgorithm env o.method = .ok m ∧
    CallOk m x y n p q o.exponent o.compileMode

end Dcor

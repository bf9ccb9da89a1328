/-
Specification: when the optimised row-wise implementation is supposed to be used.
-/
import Verif.Model.Rowwise

namespace Dcor

/-- A sample of more than three scalar observations. -/
def Arr.FastSample (a : Arr) : Prop := ∃ n, 3 < n ∧ (a.shape = [n] ∨ a.shape = [n, 1])

/-- The documented conditions: one of the six distance covariance and correlation functions, samples of
more than three scalar observations (looking at the first row), exponent 1, method AUTO or AVL, and
compilation not disabled. -/
structure OptimizedApplies (f : RowFn) (xs ys : List Arr) (o : Opts) : Prop where
  function : ∀ g, f ≠ .other g
  first_x : ∃ a ∈ xs.head?, a.FastSample
  first_y : ∃ a ∈ ys.head?, a.FastSample
  exponent : o.exponent = 1
  method : o.method = .enum .auto ∨ o.method = .enum .avl
  compileMode : o.compileMode ≠ .noCompile

/-- All the samples have the shape `s`, which has one or two components. -/
structure Uniform (s : List ℕ) (l : List Arr) : Prop where
  dims : s.length = 1 ∨ s.length = 2
  shape : ∀ a ∈ l, a.shape = s

/-- Is it one of the correlation functions? -/
def RowFn.isCorrelation : RowFn → Bool
  | .dcorSqr | .uDcorSqr | .dcor => true
  | _ => false

/-- Lists of samples that the optimised implementation can convert to arrays: non-empty, samples of the
same shape in each list, and for the correlation functions in both lists. -/
structure RowsOk (f : RowFn) (xs ys : List Arr) (sx sy : List ℕ) : Prop where
  nonempty_x : xs ≠ []
  nonempty_y : ys ≠ []
  x : Uniform sx xs
  y : Uniform sy ys
  same : f.isCorrelation = true → sx = sy

end Dcor

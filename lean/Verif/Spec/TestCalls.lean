/-
Specification: calls of the three permutation tests, and a generator that records its use.
-/
import Verif.Model.Homogeneity
import Verif.Model.Independence

namespace Dcor

variable {S : Type}

/-- A call of one of the permutation tests, without the arguments that control the resampling. -/
inductive TestCall where
  | dcov (x y : Arr) (exponent : ℝ)
  | partialDcov (x y z : Arr) (exponent : ℝ)
  | energy (args : List Arr) (o : EnergyOpts)

/-- Execute the call, with the tasks executed one after the other. -/
noncomputable def TestCall.run (c : TestCall) (env : Env) (rng : Rng S) (B : ℤ)
    (rs : RandomLike S) (nJobs : Option ℤ) : PyM (HypothesisTest × S) :=
  match c with
  | .dcov x y α => distanceCovarianceTest env rng x y B α rs nJobs
  | .partialDcov x y z α => partialDistanceCovarianceTest env rng x y z B α rs nJobs
  | .energy args o => energyTest env rng args B o rs nJobs

/-- Possible outcomes of the call, with the tasks executed in parallel. -/
def TestCall.Outcome (c : TestCall) (env : Env) (rng : Rng S) (B : ℤ) (rs : RandomLike S)
    (nJobs : Option ℤ) (out : Except PyErr (HypothesisTest × S)) : Prop :=
  match c with
  | .dcov x y α => (dcovTestSetup env x y α).PermutationTestRun rng B rs nJobs out
  | .partialDcov x y z α => (partialTestSetup env x y z α).PermutationTestRun rng B rs nJobs out
  | .energy args o => (energyTestSetup env args o).PermutationTestRun rng B rs nJobs out

/-- The number of rows that are permuted: the common number of observations, respectively the total
number of observations. -/
def TestCall.Rows : TestCall → ℕ → Prop
  | .dcov x y _, n => x.shape0 = n ∧ y.shape0 = n
  | .partialDcov x y z _, n => x.shape0 = n ∧ y.shape0 = n ∧ z.shape0 = n
  | .energy args _, n => (args.map Arr.shape0).sum = n

/-- A generator that behaves like `rng` and records the sizes of the permutations drawn, the last one
first. -/
def Rng.logged (rng : Rng S) : Rng (S × List ℕ) where
  permutation s n :=
    ((rng.permutation s.1 n).1, ((rng.permutation s.1 n).2, n :: s.2))
  fresh k := (rng.fresh k, [])

end Dcor

/-
Model of dcor/_hypothesis.py and of `_random_state_init` (dcor/_utils.py:170-184).

The random generator is a state machine; joblib is modelled twice: sequentially, and as a transition
system in which tasks are issued in order but may finish in any order.
-/
import Verif.Model.Energy
import Mathlib.Logic.Relation
import Mathlib.Logic.Equiv.Fintype

namespace Dcor

/-- A random generator: drawing a permutation changes the state; `fresh` is
`np.random.RandomState(seed)`. -/
structure Rng (S : Type) where
  permutation : S → (n : ℕ) → Equiv.Perm (Fin n) × S
  fresh : Option ℕ → S

/-- `RandomLike`, dcor/_utils.py:22-27. -/
inductive RandomLike (S : Type) where
  | seed (k : Option ℕ)
  | gen (s : S)

/-- `_random_state_init`, dcor/_utils.py:170-184. Seeds that `RandomState` rejects are not
modelled. -/
def randomStateInit {S : Type} (rng : Rng S) : RandomLike S → S
  | .gen s => s
  | .seed k => rng.fresh k

/-- `HypothesisTest`, dcor/_hypothesis.py:15-21 (the deprecated aliases are not modelled). -/
structure HypothesisTest where
  pvalue : ℝ
  statistic : FP ℝ

/-- The permuted matrix in `_permuted_statistic`, dcor/_hypothesis.py:62-63. -/
def permutedMatrix {α : Type} {n : ℕ} (m : Fin n → Fin n → α) (π : Equiv.Perm (Fin n)) :
    Fin n → Fin n → α :=
  let permutedRows := fun i => m (π i)
  fun i j => permutedRows i (π j)

/-- `_permuted_statistic`, dcor/_hypothesis.py:48-68. -/
def permutedStatistic {α : Type} {n : ℕ} (m : Fin n → Fin n → α)
    (stat : (Fin n → Fin n → α) → Except PyErr Scalar) (π : Equiv.Perm (Fin n)) :
    Except PyErr Scalar :=
  stat (permutedMatrix m π)

/-- The permutations drawn by the generator expression of dcor/_hypothesis.py:101-106, and the state
of the generator afterwards. -/
def drawPermutations {S : Type} (rng : Rng S) (n : ℕ) : ℕ → S → List (Equiv.Perm (Fin n)) × S
  | 0, s => ([], s)
  | B + 1, s =>
    let d := rng.permutation s n
    let r := drawPermutations rng n B d.2
    (d.1 :: r.1, r.2)

/-- State of `joblib.Parallel`, dcor/_hypothesis.py:108-114: the generator, the number of tasks issued
so far, the tasks that are running and the results that have arrived (both with the index of the
task). -/
structure ParState (S T R : Type) where
  rng : S
  issued : ℕ
  running : List (ℕ × T)
  done : List (ℕ × R)

/-- One step of `joblib.Parallel`: issue the next task (which draws a permutation), or let any running
task finish. -/
inductive ParStep {S R : Type} (rng : Rng S) (n B : ℕ) (task : Equiv.Perm (Fin n) → R) :
    ParState S (Equiv.Perm (Fin n)) R → ParState S (Equiv.Perm (Fin n)) R → Prop
  | issue (st : ParState S (Equiv.Perm (Fin n)) R) (h : st.issued < B) :
      ParStep rng n B task st
        ⟨(rng.permutation st.rng n).2, st.issued + 1,
          (st.issued, (rng.permutation st.rng n).1) :: st.running, st.done⟩
  | finish (st : ParState S (Equiv.Perm (Fin n)) R) (pre post : List (ℕ × Equiv.Perm (Fin n)))
      (i : ℕ) (π : Equiv.Perm (Fin n)) (h : st.running = pre ++ (i, π) :: post) :
      ParStep rng n B task st ⟨st.rng, st.issued, pre ++ post, (i, task π) :: st.done⟩

/-- The list returned by `joblib.Parallel`: the results in the order in which the tasks were
issued. -/
def collect {R : Type} (B : ℕ) (done : List (ℕ × R)) : List (Option R) :=
  (List.range B).map fun i => (done.find? fun p => p.1 == i).map Prod.snd

/-- A complete execution of `joblib.Parallel` on `B` tasks from the generator state `s`: it returns
`results` and leaves the generator in state `s'`. -/
def ParallelRun {S R : Type} (rng : Rng S) (n B : ℕ) (task : Equiv.Perm (Fin n) → R) (s : S)
    (results : List (Option R)) (s' : S) : Prop :=
  ∃ st : ParState S (Equiv.Perm (Fin n)) R,
    Relation.ReflTransGen (ParStep rng n B task) ⟨s, 0, [], []⟩ st ∧
    st.issued = B ∧ st.running = [] ∧ results = collect B st.done ∧ s' = st.rng

/-- First exception of a list of results, or all the values (joblib re-raises exceptions of
tasks). -/
def sequenceResults {R : Type} : List (Except PyErr R) → Except PyErr (List R)
  | [] => .ok []
  | r :: rest => do
    let a ← r
    let l ← sequenceResults rest
    pure (a :: l)

open Classical in
/-- The part of `_permutation_test_with_sym_matrix` after the resampling,
dcor/_hypothesis.py:115-132: `statistic.dtype` does not exist for Python numbers; a NaN compares
false; `num_resamples + 1` may be zero. -/
noncomputable def finishTest (statistic : Scalar) (numResamples : ℤ) (boot : List Scalar) :
    Except PyErr HypothesisTest := do
  if statistic.kind ≠ .npFloat then throw PyErr.attributeError
  let extreme := boot.countP fun b => decide (FP.lt statistic.val b.val)
  if numResamples + 1 = 0 then throw PyErr.zeroDivisionError
  pure ⟨((extreme : ℝ) + 1) / ((numResamples : ℝ) + 1), statistic.val⟩

/-- `_permutation_test_with_sym_matrix`, dcor/_hypothesis.py:95-132, with the tasks executed one after
the other. `range` of a negative number is empty. joblib rejects `n_jobs = 0`. The result contains the
final state of the generator. -/
noncomputable def permutationTest {S α : Type} (rng : Rng S) {n : ℕ} (matrix : Fin n → Fin n → α)
    (stat : (Fin n → Fin n → α) → Except PyErr Scalar) (numResamples : ℤ)
    (randomState : RandomLike S) (nJobs : Option ℤ) : Except PyErr (HypothesisTest × S) := do
  let s := randomStateInit rng randomState
  let statistic ← stat matrix
  if nJobs = some 0 then throw PyErr.valueError
  let drawn := drawPermutations rng n numResamples.toNat s
  let boot ← sequenceResults (drawn.1.map (permutedStatistic matrix stat))
  let r ← finishTest statistic numResamples boot
  pure (r, drawn.2)

/-- `_permutation_test_with_sym_matrix` with the tasks executed in parallel: the possible outcomes. If
tasks fail, joblib re-raises the exception of any one of them. -/
def PermutationTestRun {S α : Type} (rng : Rng S) {n : ℕ} (matrix : Fin n → Fin n → α)
    (stat : (Fin n → Fin n → α) → Except PyErr Scalar) (numResamples : ℤ)
    (randomState : RandomLike S) (nJobs : Option ℤ) (out : Except PyErr (HypothesisTest × S)) :
    Prop :=
  match stat matrix with
  | .error e => out = .error e
  | .ok statistic =>
    if nJobs = some 0 then out = .error .valueError
    else ∃ results s', ParallelRun rng n numResamples.toNat (permutedStatistic matrix stat)
        (randomStateInit rng randomState) results s' ∧
      ((∃ e, some (.error e) ∈ results ∧ out = .error e) ∨
        ∃ boot : List Scalar, results = boot.map (fun v => some (.ok v)) ∧
          out = (do
            let r ← finishTest statistic numResamples boot
            pure (r, s')))

/-- The arguments `matrix` and `statistic_function` of `_permutation_test_with_sym_matrix`,
dcor/_hypothesis.py:71-78. -/
structure TestSetup (α : Type) where
  n : ℕ
  matrix : Fin n → Fin n → α
  stat : (Fin n → Fin n → α) → Except PyErr Scalar

/-- Call of `_permutation_test_with_sym_matrix` as the last statement of a test function, tasks
executed one after the other. -/
noncomputable def PyM.permutationTest {S α : Type} (setup : PyM (TestSetup α)) (rng : Rng S)
    (numResamples : ℤ) (randomState : RandomLike S) (nJobs : Option ℤ) :
    PyM (HypothesisTest × S) := do
  let t ← setup
  PyM.lift (Dcor.permutationTest rng t.matrix t.stat numResamples randomState nJobs)

/-- The possible outcomes of the same call with the tasks executed in parallel. -/
def PyM.PermutationTestRun {S α : Type} (setup : PyM (TestSetup α)) (rng : Rng S)
    (numResamples : ℤ) (randomState : RandomLike S) (nJobs : Option ℤ)
    (out : Except PyErr (HypothesisTest × S)) : Prop :=
  match setup.out with
  | .error e => out = .error e
  | .ok t => Dcor.PermutationTestRun rng t.matrix t.stat numResamples randomState nJobs out

end Dcor

/-
Specification: sequences of permutations drawn from a random generator, and permutation p-values.
-/
import Verif.Model.Hypothesis

namespace Dcor

/-- State of the generator after drawing `k` permutations of `n` elements. -/
def stateAt {S : Type} (rng : Rng S) (n : ℕ) (s : S) (k : ℕ) : S :=
  (fun t => (rng.permutation t n).2)^[k] s

/-- The `k`-th permutation drawn (counting from zero). -/
def permAt {S : Type} (rng : Rng S) (n : ℕ) (s : S) (k : ℕ) : Equiv.Perm (Fin n) :=
  (rng.permutation (stateAt rng n s k) n).1

namespace Spec

open Classical in
/-- Number of the values `t 0, …, t (B - 1)` that are above `t0`. -/
noncomputable def countAbove (t0 : FP ℝ) (t : ℕ → FP ℝ) (B : ℕ) : ℕ :=
  ((Finset.range B).filter fun i => FP.lt t0 (t i)).card

/-- Permutation p-value of the observed value `t0` with respect to `t 0, …, t (B - 1)`. -/
noncomputable def permPvalue (t0 : FP ℝ) (t : ℕ → FP ℝ) (B : ℕ) : ℝ :=
  ((countAbove t0 t B : ℝ) + 1) / ((B : ℝ) + 1)

end Spec

end Dcor

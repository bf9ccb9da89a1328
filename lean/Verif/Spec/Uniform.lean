/-
Specification: generators that replay given permutations, used to quantify over all the random
numbers a test can see.
-/
import Verif.Spec.Hypothesis

namespace Dcor

/-- A generator that returns the permutations `σ 0, σ 1, …` one after the other, starting in state 0.
(Draws of other sizes, and draws after the last permutation, return the identity.) If the `σ i` are
independent and uniformly distributed this is an ideal random generator. -/
def Rng.replay {n B : ℕ} (σ : Fin B → Equiv.Perm (Fin n)) : Rng ℕ where
  permutation s m :=
    (if h : n = m ∧ s < B then h.1 ▸ σ ⟨s, h.2⟩ else 1, s + 1)
  fresh _ := 0

end Dcor

/-
Specification: the multi-sample energy statistic and the relabelling of pooled samples.

Samples are indexed by `Fin k`; sample `a` has `sz a` observations.
-/
import Verif.Model.Energy
import Verif.Spec.Calls
import Verif.Spec.Energy

namespace Dcor

/-- A supported call of `energy_test` on `k` samples: at least two samples, none of them empty, with
the same number of columns; any dtype except `Decimal`; a non-negative exponent; the default average. -/
structure EnergyTestCall {k p : ℕ} (A : Fin k → Arr) (o : EnergyOpts) {sz : Fin k → ℕ}
    (X : (a : Fin k) → Fin (sz a) → Fin p → ℝ) : Prop where
  two : 2 ≤ k
  holds : ∀ a, Holds (A a).data (sz a) p (X a)
  pos : ∀ a, 0 < sz a
  dtype : ∀ a, (A a).dtype ≠ .decimal
  exponent_nonneg : 0 ≤ o.exponent
  mean : o.average = none

namespace Spec

variable {k p : ℕ} {sz : Fin k → ℕ}

/-- The observations of all samples, one sample after the other. -/
def pooled (X : (a : Fin k) → Fin (sz a) → Fin p → ℝ) (i : Fin (∑ a, sz a)) : Fin p → ℝ :=
  X (finSigmaFinEquiv.symm i).1 (finSigmaFinEquiv.symm i).2

/-- Samples of the same sizes made of the pooled observations in a different order. -/
def relabel (X : (a : Fin k) → Fin (sz a) → Fin p → ℝ) (σ : Equiv.Perm (Fin (∑ a, sz a)))
    (a : Fin k) (i : Fin (sz a)) : Fin p → ℝ :=
  pooled X (σ (finSigmaFinEquiv ⟨a, i⟩))

/-- A family of two samples. -/
def pair {n m p : ℕ} (X : Fin n → Fin p → ℝ) (Y : Fin m → Fin p → ℝ) :
    (a : Fin 2) → Fin (![n, m] a) → Fin p → ℝ :=
  Fin.cons X (Fin.cons Y fun a => a.elim0)

/-- Energy distance of two samples as a floating point number: NaN if a sample is empty or, for the
U-statistic, has fewer than two observations. -/
noncomputable def energyFP (s : EstStat) (α : ℝ) {n m : ℕ} (X : Fin n → Fin p → ℝ)
    (Y : Fin m → Fin p → ℝ) : FP ℝ :=
  match s with
  | .v => if n = 0 ∨ m = 0 then .nan else .fin (energyV α X Y)
  | .u => if n ≤ 1 ∨ m ≤ 1 then .nan else .fin (energyU α X Y)

/-- Two-sample statistic `n m / (n + m)` times the energy distance. -/
noncomputable def energyTestPair (s : EstStat) (α : ℝ) {n m : ℕ} (X : Fin n → Fin p → ℝ)
    (Y : Fin m → Fin p → ℝ) : FP ℝ :=
  .fin ((n : ℝ) * m / (n + m)) * energyFP s α X Y

/-- Sum of the two-sample statistics over all pairs of samples. -/
noncomputable def energyTestStat (s : EstStat) (α : ℝ)
    (X : (a : Fin k) → Fin (sz a) → Fin p → ℝ) : FP ℝ :=
  ∑ a, ∑ b ∈ Finset.univ.filter (a < ·), energyTestPair s α (X a) (X b)

end Spec

end Dcor

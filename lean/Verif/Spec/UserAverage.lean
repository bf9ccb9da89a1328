/-
Specification: the energy distance with an average chosen by the caller.
-/
import Verif.Spec.Homogeneity

namespace Dcor

/-- A supported call of `energy_distance` with the average `f`: as `EnergyCall`, which is about the default average. -/
structure AverageCall (x y : Arr) (o : EnergyOpts) (f : Average) {n m p : ℕ} (X : Fin n → Fin p → ℝ)
    (Y : Fin m → Fin p → ℝ) : Prop where
  hx : Holds x.data n p X
  hy : Holds y.data m p Y
  average : o.average = some f
  exponent_nonneg : 0 ≤ o.exponent
  decimal : (x.dtype = .decimal ∨ y.dtype = .decimal) → ∃ k : ℤ, o.exponent = k
  decimal_iff : x.dtype = .decimal ↔ y.dtype = .decimal

/-- A supported call of `energy_test` with the average `f`, which returns NumPy floats. -/
structure AverageTestCall {k p : ℕ} (A : Fin k → Arr) (o : EnergyOpts) (f : Average) {sz : Fin k → ℕ}
    (X : (a : Fin k) → Fin (sz a) → Fin p → ℝ) : Prop where
  two : 2 ≤ k
  holds : ∀ a, Holds (A a).data (sz a) p (X a)
  pos : ∀ a, 0 < sz a
  dtype : ∀ a, (A a).dtype ≠ .decimal
  exponent_nonneg : 0 ≤ o.exponent
  average : o.average = some f
  kind : f.kind = .npFloat

namespace Spec

variable {n m p : ℕ}

/-- All distances between two samples. -/
noncomputable def crossDistances (α : ℝ) (X : Fin n → Fin p → ℝ) (Y : Fin m → Fin p → ℝ) : AvgArg :=
  .mat ⟨n, m, fun i j => dist α (X i) (Y j)⟩

/-- The distances within a sample that are averaged: all of them for the V-statistic, those of the pairs `i < j` for the
U-statistic. -/
noncomputable def withinDistances (s : EstStat) (α : ℝ) (X : Fin n → Fin p → ℝ) : AvgArg :=
  match s with
  | .v => crossDistances α X X
  | .u => .flat ((((List.finRange n).product (List.finRange n)).filter fun ij => decide (ij.1 < ij.2)).map
      fun ij => dist α (X ij.1) (X ij.2))

/-- `2 f(D_xy) - f(D_xx) - f(D_yy)`. -/
noncomputable def averageEnergy (f : AvgArg → FP ℝ) (s : EstStat) (α : ℝ) (X : Fin n → Fin p → ℝ)
    (Y : Fin m → Fin p → ℝ) : FP ℝ :=
  .fin 2 * f (crossDistances α X Y) - f (withinDistances s α X) - f (withinDistances s α Y)

/-- The statistic of `energy_test` with the average `f`: the sum over the pairs of samples. -/
noncomputable def averageTestStat {k : ℕ} {sz : Fin k → ℕ} (f : AvgArg → FP ℝ) (s : EstStat) (α : ℝ)
    (W : (a : Fin k) → Fin (sz a) → Fin p → ℝ) : FP ℝ :=
  ∑ a, ∑ b ∈ Finset.univ.filter (a < ·), .fin ((sz a : ℝ) * sz b / (sz a + sz b)) * averageEnergy f s α (W a) (W b)

end Spec

end Dcor

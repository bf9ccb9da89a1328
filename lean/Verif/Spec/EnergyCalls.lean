/-
Specification: which calls of the energy functions are supposed to return a number.
-/
import Verif.Model.Energy
import Verif.Spec.Calls

namespace Dcor

/-- A supported call of `energy_distance` on samples `X`, `Y` of the same dimension, with the default
average: a non-negative exponent, integral for arrays of `Decimal`, which cannot be combined with other
dtypes. -/
structure EnergyCall (x y : Arr) (o : EnergyOpts) {n m p : ℕ} (X : Fin n → Fin p → ℝ)
    (Y : Fin m → Fin p → ℝ) : Prop where
  hx : Holds x.data n p X
  hy : Holds y.data m p Y
  mean : o.average = none
  exponent_nonneg : 0 ≤ o.exponent
  decimal : (x.dtype = .decimal ∨ y.dtype = .decimal) → ∃ k : ℤ, o.exponent = k
  decimal_iff : x.dtype = .decimal ↔ y.dtype = .decimal

end Dcor

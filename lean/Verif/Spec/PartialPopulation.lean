/-
Specification: partial distance covariance of a distribution.
-/
import Mathlib.Probability.ConditionalProbability
import Verif.Spec.Population

namespace Dcor.Spec

open MeasureTheory

variable {S : Type*} [MeasurableSpace S] {p q r : ℕ}

/-- Squared distance covariance of two random vectors `f` and `g`. -/
noncomputable def covPop (α : ℝ) (μ : Measure S) (f : S → Fin p → ℝ) (g : S → Fin q → ℝ) : ℝ :=
  dcovPop α (μ.map fun w => (f w, g w))

open Classical in
/-- Partial distance covariance of the random vectors `f` and `g` given `h`. -/
noncomputable def partialPop (α : ℝ) (μ : Measure S) (f : S → Fin p → ℝ) (g : S → Fin q → ℝ) (h : S → Fin r → ℝ) : ℝ :=
  if covPop α μ h h = 0 then covPop α μ f g
  else covPop α μ f g - covPop α μ f h * covPop α μ g h / covPop α μ h h

/-- The random vectors `f` and `g` are independent given `h`, for an `h` with countably many values: they are independent
under the distribution given each of the values. -/
def IndependentGiven (μ : Measure S) (f : S → Fin p → ℝ) (g : S → Fin q → ℝ) (h : S → Fin r → ℝ) : Prop :=
  ∀ c, ProbabilityTheory.IndepFun f g (ProbabilityTheory.cond μ (h ⁻¹' {c}))

end Dcor.Spec

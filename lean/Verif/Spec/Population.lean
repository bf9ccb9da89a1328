/-
Distance covariance and energy distance of distributions, and samples of distributions.
-/
import Mathlib.Probability.IdentDistrib
import Mathlib.MeasureTheory.Integral.Bochner.Basic
import Verif.Spec.Dcov

namespace Dcor.Spec

open MeasureTheory ProbabilityTheory

variable {p q : ℕ}

/-- Squared distance covariance of the two parts of a random vector with distribution `μ`, for three independent
copies `z`, `z'`, `z''` of it. -/
noncomputable def dcovPop (α : ℝ) (μ : Measure ((Fin p → ℝ) × (Fin q → ℝ))) : ℝ :=
  (∫ z, ∫ z', dist α z.1 z'.1 * dist α z.2 z'.2 ∂μ ∂μ)
    + (∫ z, ∫ z', dist α z.1 z'.1 ∂μ ∂μ) * (∫ z, ∫ z', dist α z.2 z'.2 ∂μ ∂μ)
    - 2 * ∫ z, (∫ z', dist α z.1 z'.1 ∂μ) * (∫ z'', dist α z.2 z''.2 ∂μ) ∂μ

/-- Squared energy distance of two distributions. -/
noncomputable def energyPop (α : ℝ) (μ ν : Measure (Fin p → ℝ)) : ℝ :=
  2 * (∫ x, ∫ y, dist α x y ∂ν ∂μ) - (∫ x, ∫ x', dist α x x' ∂μ ∂μ) - ∫ y, ∫ y', dist α y y' ∂ν ∂ν

/-- Independent observations (pairwise independence is enough) with distribution `μ`. -/
structure Sample {Ω S : Type*} [MeasurableSpace Ω] [MeasurableSpace S] (P : Measure Ω) (Z : ℕ → Ω → S)
    (μ : Measure S) : Prop where
  measurable : ∀ i, Measurable (Z i)
  law : ∀ i, P.map (Z i) = μ
  indep : Pairwise fun i j => IndepFun (Z i) (Z j) P

/-- Finitely many independent observations with distribution `μ`. -/
structure Observations {Ω S : Type*} [MeasurableSpace Ω] [MeasurableSpace S] {n : ℕ} (P : Measure Ω) (Z : Fin n → Ω → S)
    (μ : Measure S) : Prop where
  measurable : ∀ i, Measurable (Z i)
  law : ∀ i, P.map (Z i) = μ
  indep : iIndepFun Z P

/-- Moments that are finite: the ones of the parts and of their product. -/
structure Moments (α : ℝ) (μ : Measure ((Fin p → ℝ) × (Fin q → ℝ))) : Prop where
  fst : Integrable (fun z => dist α z.1 0) μ
  snd : Integrable (fun z => dist α z.2 0) μ
  prod : Integrable (fun z => dist α z.1 0 * dist α z.2 0) μ

end Dcor.Spec

/-
The V-statistics are functions of the empirical distribution of the observations.
-/
import Verif.Spec.Energy
import Verif.Spec.Dcov
import Mathlib.Algebra.BigOperators.Field

namespace Dcor.Spec

open Finset

variable {A : Type} {n n' m m' p q : ℕ}

/-- Mean of a function over a sample. -/
noncomputable def emp (Z : Fin n → A) (f : A → ℝ) : ℝ := (∑ i, f (Z i)) / n

theorem sum_fibres [DecidableEq A] (Z : Fin n → A) (f : A → ℝ) (s : Finset A) (hs : ∀ i, Z i ∈ s) :
    ∑ i, f (Z i) = ∑ z ∈ s, ((univ.filter fun i => Z i = z).card : ℝ) * f z := by
  rw [← sum_fiberwise_of_maps_to (s := univ) (t := s) (g := Z) (fun i _ => hs i)]
  refine sum_congr rfl fun z _ => ?_
  rw [sum_congr rfl (g := fun _ => f z) fun i hi => by rw [(mem_filter.1 hi).2], sum_const,
    nsmul_eq_mul]

/-- Means only depend on the frequencies of the values. -/
theorem emp_congr [DecidableEq A] (Z : Fin n → A) (Z' : Fin n' → A)
    (h : ∀ z, ((univ.filter fun i => Z i = z).card : ℝ) / n
      = ((univ.filter fun i => Z' i = z).card : ℝ) / n') (f : A → ℝ) : emp Z f = emp Z' f := by
  unfold emp
  rw [sum_fibres Z f (univ.image Z ∪ univ.image Z') (fun i => mem_union_left _ (mem_image_of_mem _ (mem_univ i))),
    sum_fibres Z' f (univ.image Z ∪ univ.image Z') (fun i => mem_union_right _ (mem_image_of_mem _ (mem_univ i))),
    sum_div, sum_div]
  refine sum_congr rfl fun z _ => ?_
  rw [mul_div_right_comm, h z, mul_div_right_comm]

/-- A kernel centred with respect to a sample. -/
noncomputable def kernCentre (Z : Fin n → A) (K : A → A → ℝ) (z w : A) : ℝ :=
  K z w - emp Z (K z) - emp Z (fun t => K t w) + emp Z fun t => emp Z (K t)

theorem centre_kern (Z : Fin n → A) (K : A → A → ℝ) (i j : Fin n) :
    centre (fun i j => K (Z i) (Z j)) i j = kernCentre Z K (Z i) (Z j) := by
  unfold centre kernCentre emp
  rw [← sum_div, div_div, ← pow_two]

theorem dcovSqr_kern (Z : Fin n → A) (K L : A → A → ℝ) :
    dcovSqr (fun i j => K (Z i) (Z j)) (fun i j => L (Z i) (Z j))
      = emp Z fun z => emp Z fun w => kernCentre Z K z w * kernCentre Z L z w := by
  unfold dcovSqr
  simp only [centre_kern]
  unfold emp
  rw [← sum_div, div_div, ← pow_two]

/-- The squared distance covariance is a function of the empirical distribution of the pairs. -/
theorem dcovSqr_empirical (Z : Fin n → A) (Z' : Fin n' → A)
    (h : ∀ f, emp Z f = emp Z' f) (K L : A → A → ℝ) :
    dcovSqr (fun i j => K (Z i) (Z j)) (fun i j => L (Z i) (Z j))
      = dcovSqr (fun i j => K (Z' i) (Z' j)) (fun i j => L (Z' i) (Z' j)) := by
  rw [dcovSqr_kern, dcovSqr_kern]
  simp only [kernCentre, h]

theorem crossMean_emp (α : ℝ) (X : Fin n → Fin p → ℝ) (Y : Fin m → Fin p → ℝ) :
    crossMean α X Y = emp X fun u => emp Y fun v => dist α u v := by
  unfold crossMean emp
  rw [← sum_div, div_div, mul_comm]

/-- The energy distance is a function of the two empirical distributions. -/
theorem energyV_empirical (α : ℝ) (X : Fin n → Fin p → ℝ) (X' : Fin n' → Fin p → ℝ)
    (Y : Fin m → Fin p → ℝ) (Y' : Fin m' → Fin p → ℝ)
    (hX : ∀ f, emp X f = emp X' f) (hY : ∀ f, emp Y f = emp Y' f) :
    energyV α X Y = energyV α X' Y' := by
  unfold energyV
  simp only [crossMean_emp, hX, hY]

end Dcor.Spec

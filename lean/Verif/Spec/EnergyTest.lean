/-
Specification: the multi-sample energy statistic as a real number.
-/
import Verif.Spec.Homogeneity

namespace Dcor.Spec

open Finset

variable {k p n m : ℕ} {sz : Fin k → ℕ}

/-- Energy distance of two samples. -/
noncomputable def energyVal (s : EstStat) (α : ℝ) (X : Fin n → Fin p → ℝ) (Y : Fin m → Fin p → ℝ) : ℝ :=
  match s with
  | .v => energyV α X Y
  | .u => energyU α X Y

/-- Sum over all pairs of samples of `n m / (n + m)` times the energy distance. -/
noncomputable def energyTestVal (s : EstStat) (α : ℝ) (X : (a : Fin k) → Fin (sz a) → Fin p → ℝ) : ℝ :=
  ∑ a, ∑ b ∈ univ.filter (a < ·), (sz a : ℝ) * sz b / (sz a + sz b) * energyVal s α (X a) (X b)

/-- The number of observations a sample needs. -/
def minSize : EstStat → ℕ
  | .v => 1
  | .u => 2

theorem fp_sum_fin {ι : Type} (t : Finset ι) (f : ι → ℝ) : ∑ i ∈ t, FP.fin (f i) = FP.fin (∑ i ∈ t, f i) := by
  classical
  induction t using Finset.induction_on with
  | empty => simp; rfl
  | insert a t ha ih => rw [sum_insert ha, sum_insert ha, ih, FP.fin_add]

/-- If the samples are large enough this is the statistic of `Spec.energyTestStat`. -/
theorem energyTestStat_eq (s : EstStat) (α : ℝ) (X : (a : Fin k) → Fin (sz a) → Fin p → ℝ) (h : ∀ a, minSize s ≤ sz a) :
    energyTestStat s α X = .fin (energyTestVal s α X) := by
  unfold energyTestStat energyTestVal
  rw [← fp_sum_fin]
  refine sum_congr rfl fun a _ => ?_
  rw [← fp_sum_fin]
  refine sum_congr rfl fun b _ => ?_
  have ha := h a
  have hb := h b
  unfold energyTestPair energyFP energyVal
  cases s
  all_goals
    simp only [minSize] at ha hb ⊢
    rw [if_neg (by omega), FP.fin_mul]

end Dcor.Spec

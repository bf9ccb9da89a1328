/-
The centring functions on matrices of numbers compute the textbook centrings.
-/
import Verif.Proofs.FromTerms

namespace Dcor

open Finset

variable {n : ℕ}

theorem sums_ofReal (a : Fin n → Fin n → ℝ) :
    symmetricMatrixSums (FMat.ofReal a)
      = (fun i => .fin (∑ j, a i j), .fin (∑ i, ∑ j, a i j)) := by
  unfold symmetricMatrixSums FMat.ofReal
  simp only [FP.fin_sum]

/-- What the code computes: row sums are used for the columns too. -/
theorem doubleCentered_ofReal (a : Fin n → Fin n → ℝ) :
    doubleCentered (FMat.ofReal a) = FMat.ofReal (fun i j =>
      a i j - (∑ k, a j k) / n - (∑ k, a i k) / n + (∑ k, ∑ l, a k l) / n ^ 2) := by
  funext i j
  have hn : (n : ℝ) ≠ 0 := by have := i.pos; positivity
  unfold doubleCentered
  rw [sums_ofReal]
  simp only [FMat.ofReal, FP.fin_div _ hn, FP.fin_div _ (pow_ne_zero 2 hn), FP.fin_sub, FP.fin_add]

theorem doubleCentered_symm (a : Fin n → Fin n → ℝ) (ha : Symm a) :
    doubleCentered (FMat.ofReal a) = FMat.ofReal (Spec.centre a) := by
  rw [doubleCentered_ofReal]
  funext i j
  unfold FMat.ofReal Spec.centre
  congr 1
  have : ∑ k, a k j = ∑ k, a j k := sum_congr rfl fun k _ => ha k j
  rw [this]
  ring

theorem uCentered_ofReal (hn : 2 < n) (a : Fin n → Fin n → ℝ) :
    uCentered (FMat.ofReal a) = FMat.ofReal (fun i j => if i = j then 0 else
      a i j - (∑ k, a j k) / (n - 2) - (∑ k, a i k) / (n - 2)
        + (∑ k, ∑ l, a k l) / ((n - 1) * (n - 2))) := by
  have hnR : (2 : ℝ) < n := by exact_mod_cast hn
  have h1 : (n : ℝ) - 1 ≠ 0 := by intro h; linarith
  have h2 : (n : ℝ) - 2 ≠ 0 := by intro h; linarith
  funext i j
  unfold uCentered
  rw [sums_ofReal]
  simp only [FMat.ofReal, FP.fin_div _ h2, FP.fin_div _ (mul_ne_zero h1 h2), FP.fin_sub,
    FP.fin_add]
  split_ifs <;> rfl

theorem uCentered_symm (hn : 2 < n) (a : Fin n → Fin n → ℝ) (ha : Symm a) :
    uCentered (FMat.ofReal a) = FMat.ofReal (Spec.uCentre a) := by
  rw [uCentered_ofReal hn]
  funext i j
  unfold FMat.ofReal Spec.uCentre
  congr 1
  have : ∑ k, a k j = ∑ k, a j k := sum_congr rfl fun k _ => ha k j
  rw [this]
  by_cases h : i = j
  · simp only [h, if_true]
  · simp only [h, if_false]; ring

theorem meanProduct_ofReal (hn : 0 < n) (a b : Fin n → Fin n → ℝ) :
    meanProduct (FMat.ofReal a) (FMat.ofReal b)
      = .fin ((∑ i, ∑ j, a i j * b i j) / (n ^ 2)) := by
  have h0 : (n : ℝ) * n ≠ 0 := by positivity
  unfold meanProduct FMat.ofReal
  simp only [FP.fin_mul, FP.fin_sum, FP.fin_div _ h0]
  rw [sq]

theorem uProduct_ofReal (hn : 3 < n) (a b : Fin n → Fin n → ℝ) :
    uProduct (FMat.ofReal a) (FMat.ofReal b)
      = .fin ((∑ i, ∑ j, a i j * b i j) / (n * (n - 3))) := by
  have hnR : (3 : ℝ) < n := by exact_mod_cast hn
  have h0 : (n : ℝ) ≠ 0 := by intro h; linarith
  have h3 : (n : ℝ) - 3 ≠ 0 := by intro h; linarith
  unfold uProduct FMat.ofReal
  simp only [FP.fin_mul, FP.fin_sum, FP.fin_div _ (mul_ne_zero h0 h3)]

end Dcor

/-
C91: degenerate cases of the partial statistics in `float64`.
-/
import Verif.Proofs.FloatPartial

namespace Dcor.Props

open Dcor

variable {sqrt : ℚ → ℚ} {sum : List ℚ → ℚ} {dot : List (ℚ × ℚ) → ℚ} {n p q r : ℕ}

/-- C91: the partial statistics are symmetric in their first two arguments bit for bit, whatever the order of the sums. -/
theorem C91_symmetry (sqrt : ℚ → ℚ) (sum : List ℚ → ℚ) (dot : List (ℚ × ℚ) → ℚ) (x : Fin n → Fin p → ℚ)
    (y : Fin n → Fin q → ℚ) (z : Fin n → Fin r → ℚ) :
    (binary64 sqrt sum dot).partialCovariance x y z = (binary64 sqrt sum dot).partialCovariance y x z ∧
      (binary64 sqrt sum dot).partialCorrelation x y z = (binary64 sqrt sum dot).partialCorrelation y x z := by
  refine ⟨uProduct_comm _ _, ?_⟩
  have hm : ∀ a b : ℚ, (binary64 sqrt sum dot).mul a b = (binary64 sqrt sum dot).mul b a := fun a b =>
    congrArg round64 (mul_comm a b)
  have hf : ∀ a b c : ℚ, (binary64 sqrt sum dot).partialFromCorrelations a b c
      = (binary64 sqrt sum dot).partialFromCorrelations a c b := by
    intro a b c
    unfold Arith.partialFromCorrelations
    dsimp only
    rw [hm b c, hm ((binary64 sqrt sum dot).sqrtClip ((binary64 sqrt sum dot).sub _ ((binary64 sqrt sum dot).mul b b)))]
  unfold Arith.partialCorrelation
  dsimp only
  rw [hf, uProduct_comm ((binary64 sqrt sum dot).uDistanceMatrix y) ((binary64 sqrt sum dot).uDistanceMatrix x),
    hm ((binary64 sqrt sum dot).uProduct ((binary64 sqrt sum dot).uDistanceMatrix y) _)
      ((binary64 sqrt sum dot).uProduct ((binary64 sqrt sum dot).uDistanceMatrix x) _)]

/-- C91: conditioning on one of the two samples gives exactly zero, for the partial covariance and for the partial
correlation, whatever the order of the sums. -/
theorem C91_condition_on_sample (h : IsFloat64 sqrt sum dot) (hn : 3 < n) (x : Fin n → Fin p → ℚ) (y : Fin n → Fin q → ℚ) :
    (binary64 sqrt sum dot).partialCovariance x y x = 0 ∧ (binary64 sqrt sum dot).partialCovariance x y y = 0 ∧
      (binary64 sqrt sum dot).partialCorrelation x y x = 0 ∧ (binary64 sqrt sum dot).partialCorrelation x y y = 0 := by
  have c1 : ∀ {p q : ℕ} (x : Fin n → Fin p → ℚ) (y : Fin n → Fin q → ℚ),
      (binary64 sqrt sum dot).partialCovariance x y x = 0 := fun x y =>
    uProduct_zero h fun i j => Or.inl (complementary_self h hn (fun i j => uCentered_float _ i j) i j)
  have c2 : ∀ {p q : ℕ} (x : Fin n → Fin p → ℚ) (y : Fin n → Fin q → ℚ),
      (binary64 sqrt sum dot).partialCorrelation x y x = 0 := by
    intro p q x y
    obtain ⟨h0, hz⟩ := uProduct_self_nonneg h hn ((binary64 sqrt sum dot).uDistanceMatrix x)
    unfold Arith.partialCorrelation
    dsimp only
    rw [clippedCorrelation_self h (uProduct_float _ _) h0]
    split_ifs with hv
    · have hx := hz hv
      rw [uProduct_zero (a := (binary64 sqrt sum dot).uDistanceMatrix x) h fun i j => Or.inl (hx i j),
        uProduct_zero (a := (binary64 sqrt sum dot).uDistanceMatrix x) h fun i j => Or.inl (hx i j)]
      rw [clippedCorrelation_zero]
      exact (partialFromCorrelations_zero _).1
    · exact (partialFromCorrelations_one h _ _).1
  exact ⟨c1 x y, (C91_symmetry sqrt sum dot x y y).1.trans (c1 y x), c2 x y,
    (C91_symmetry sqrt sum dot x y y).2.trans (c2 y x)⟩

/-- C91: conditioning on a constant sample leaves the product of the `U`-centred matrices, without additional rounding
errors, and the partial correlation is the clipped correlation. -/
theorem C91_condition_on_constant (h : IsFloat64 sqrt sum dot) (x : Fin n → Fin p → ℚ) (y : Fin n → Fin q → ℚ)
    (c : Fin r → ℚ) :
    (binary64 sqrt sum dot).partialCovariance x y (fun _ => c)
      = (binary64 sqrt sum dot).uProduct ((binary64 sqrt sum dot).uDistanceMatrix x)
        ((binary64 sqrt sum dot).uDistanceMatrix y) := by
  unfold Arith.partialCovariance
  dsimp only
  rw [complementary_zero (a := (binary64 sqrt sum dot).uDistanceMatrix x) h (fun i j => uCentered_float _ i j)
      (uDistanceMatrix_const h c),
    complementary_zero (a := (binary64 sqrt sum dot).uDistanceMatrix y) h (fun i j => uCentered_float _ i j)
      (uDistanceMatrix_const h c)]

/-- C91: the partial distance correlation of a sample with itself is zero or within `2 ^ -50` of one. -/
theorem C91_self (h : IsFloat64 sqrt sum dot) (hn : 3 < n) (x : Fin n → Fin p → ℚ) (z : Fin n → Fin r → ℚ) :
    (binary64 sqrt sum dot).partialCorrelation x x z = 0 ∨
      |(binary64 sqrt sum dot).partialCorrelation x x z - 1| ≤ 1 / 2 ^ 50 := by
  obtain ⟨h0, hz⟩ := uProduct_self_nonneg h hn ((binary64 sqrt sum dot).uDistanceMatrix x)
  unfold Arith.partialCorrelation
  dsimp only
  rw [clippedCorrelation_self h (uProduct_float _ _) h0]
  split_ifs with hv
  · left
    have hx := hz hv
    rw [uProduct_zero (a := (binary64 sqrt sum dot).uDistanceMatrix x) h fun i j => Or.inl (hx i j),
      uProduct_zero (a := (binary64 sqrt sum dot).uDistanceMatrix x) h fun i j => Or.inl (hx i j), clippedCorrelation_zero]
    exact (partialFromCorrelations_zero _).1
  · exact partialFromCorrelations_same h (clip1_abs _)

/-! ### Cases that meet the hypotheses -/

/-- A sample of four observations. -/
def px : Fin 4 → Fin 1 → ℚ := fun i _ => (![0, 1, 3, 7] : Fin 4 → ℚ) i

/-- Another one. -/
def py : Fin 4 → Fin 1 → ℚ := fun i _ => (![2, 0, 5, 1] : Fin 4 → ℚ) i

example : (binary64 sqrt64 seqSum64 seqDot64).partialCovariance px py px = 0 :=
  (C91_condition_on_sample float64_seq.1 (by norm_num) px py).1

/-- The quantities that are zero above are not always zero. -/
example : (binary64 sqrt64 seqSum64 seqDot64).partialCovariance px py (fun _ (_ : Fin 1) => 1) ≠ 0 ∧
    (binary64 sqrt64 seqSum64 seqDot64).partialCorrelation px px py ≠ 0 := by
  decide +kernel

example : |(binary64 sqrt64 seqSum64 seqDot64).partialCorrelation px px py - 1| ≤ 1 / 2 ^ 50 :=
  (C91_self float64_seq.1 (by norm_num) px py).resolve_left (by decide +kernel)

end Dcor.Props

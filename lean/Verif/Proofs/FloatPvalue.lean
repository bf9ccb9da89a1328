/-
The p-values of the permutation tests in `float64` without limits of the exponent.
-/
import Verif.Proofs.FloatTests

namespace Dcor

variable {sqrt : ℚ → ℚ} {sum : List ℚ → ℚ} {dot : List (ℚ × ℚ) → ℚ} {n : ℕ}

/-- The p-value is the correctly rounded quotient. -/
theorem pvalue_binary64 (h : IsFloat64 sqrt sum dot) (perms : List (Equiv.Perm (Fin n))) (hp : perms.length < 2 ^ 53)
    (d : Fin n → Fin n → ℚ) (stat : (Fin n → Fin n → ℚ) → ℚ) :
    ((binary64 sqrt sum dot).permutationTest perms d stat).pvalue = round64 (((perms.countP fun π =>
      decide (stat d < stat fun i j => d (π i) (π j)) : ℕ) + 1) / ((perms.length : ℚ) + 1)) := by
  have hle : (perms.countP fun π => decide (stat d < stat fun i j => d (π i) (π j))) ≤ perms.length := List.countP_le_length
  have int : ∀ k : ℕ, k ≤ 2 ^ 53 → round64 (k : ℚ) = k := by
    intro k hk
    have := round64_int k (by rw [Nat.abs_cast]; exact_mod_cast hk)
    rwa [Int.cast_natCast] at this
  have e0 : round64 ((0 : ℤ) : ℚ) = 0 := by rw [Int.cast_zero, round64_zero]
  have e1 : round64 ((1 : ℤ) : ℚ) = 1 := by
    have := int 1 (by norm_num)
    rw [Nat.cast_one] at this
    rw [Int.cast_one, this]
  have es : sum (perms.map fun π => if decide (stat d < stat fun i j => d (π i) (π j)) then round64 ((1 : ℤ) : ℚ)
      else round64 ((0 : ℤ) : ℚ)) = ((perms.countP fun π => decide (stat d < stat fun i j => d (π i) (π j)) : ℕ) : ℚ) := by
    have := (h.sum (perms.map fun π => if decide (stat d < stat fun i j => d (π i) (π j)) then round64 ((1 : ℤ) : ℚ)
      else round64 ((0 : ℤ) : ℚ))).nat (perms.map fun π => if decide (stat d < stat fun i j => d (π i) (π j)) then 1 else 0)
      (by
        rw [List.map_map]
        apply List.map_congr_left
        intro π _
        rw [e0, e1]
        simp only [Function.comp_apply]
        split_ifs <;> simp)
      (by rw [sum_indicator]; omega)
    rw [this, sum_indicator]
  have e2 := int ((perms.countP fun π => decide (stat d < stat fun i j => d (π i) (π j))) + 1) (by omega)
  have e3 := int (perms.length + 1) (by omega)
  rw [Nat.cast_add, Nat.cast_one] at e2 e3
  have e4 : (((perms.length : ℤ) + 1 : ℤ) : ℚ) = (perms.length : ℚ) + 1 := by push_cast; rfl
  show round64 (round64 (sum (perms.map fun π => if decide (stat d < stat fun i j => d (π i) (π j)) then round64 ((1 : ℤ) : ℚ)
      else round64 ((0 : ℤ) : ℚ)) + round64 ((1 : ℤ) : ℚ)) / round64 ((((perms.length : ℤ) + 1 : ℤ)) : ℚ)) = _
  rw [es, e1, e2, e4, e3]

section Bracket

open Classical

variable (h : IsFloat64 sqrt sum dot) (perms : List (Equiv.Perm (Fin n))) (hp : perms.length < 2 ^ 53)
  {d : Fin n → Fin n → ℚ} {stat : (Fin n → Fin n → ℚ) → ℚ} {S : Equiv.Perm (Fin n) → ℝ} {E : ℝ}
  (hS : ∀ π, |((stat fun i j => d (π i) (π j) : ℚ) : ℝ) - S π| ≤ E)

include h hp hS

/-- If all statistics are known up to an error of `E`, the number of larger ones is between those with thresholds moved by
`2 * E`. -/
theorem pvalue_bracket :
    ∃ c : ℕ, ((binary64 sqrt sum dot).permutationTest perms d stat).pvalue = round64 ((c + 1) / ((perms.length : ℚ) + 1)) ∧
      (perms.countP fun π => decide (S (Equiv.refl _) + 2 * E < S π)) ≤ c ∧
      c ≤ perms.countP fun π => decide (S (Equiv.refl _) - 2 * E < S π) := by
  have h0 : |((stat d : ℚ) : ℝ) - S (Equiv.refl _)| ≤ E := hS (Equiv.refl _)
  have h0 := abs_le.1 h0
  refine ⟨_, pvalue_binary64 h perms hp d stat, ?_, ?_⟩
  · apply List.countP_mono_left
    intro π _ hπ
    have hπ := of_decide_eq_true hπ
    have h1 := abs_le.1 (hS π)
    apply decide_eq_true
    have : ((stat d : ℚ) : ℝ) < ((stat fun i j => d (π i) (π j) : ℚ) : ℝ) := by linarith [h0.2, h1.1]
    exact_mod_cast this
  · apply List.countP_mono_left
    intro π _ hπ
    have hπ := of_decide_eq_true hπ
    have h1 := abs_le.1 (hS π)
    apply decide_eq_true
    have : ((stat d : ℚ) : ℝ) < ((stat fun i j => d (π i) (π j) : ℚ) : ℝ) := by exact_mod_cast hπ
    linarith [h0.1, h1.2]

/-- If no statistic is within `2 * E` of the observed one, the number of larger ones is exact. -/
theorem pvalue_separated (hsep : ∀ π ∈ perms, 2 * E < |S π - S (Equiv.refl _)|) :
    ((binary64 sqrt sum dot).permutationTest perms d stat).pvalue
      = round64 (((perms.countP fun π => decide (S (Equiv.refl _) < S π) : ℕ) + 1) / ((perms.length : ℚ) + 1)) := by
  obtain ⟨c, hc, h1, h2⟩ := pvalue_bracket h perms hp hS
  have hE : 0 ≤ E := (abs_nonneg _).trans (hS (Equiv.refl _))
  have e : c = perms.countP fun π => decide (S (Equiv.refl _) < S π) := by
    apply le_antisymm
    · refine h2.trans (List.countP_mono_left ?_)
      intro π hπ hlt
      have hlt := of_decide_eq_true hlt
      apply decide_eq_true
      rcases lt_abs.1 (hsep π hπ) with hs | hs <;> linarith
    · refine le_trans (List.countP_mono_left ?_) h1
      intro π hπ hlt
      have hlt := of_decide_eq_true hlt
      apply decide_eq_true
      rcases lt_abs.1 (hsep π hπ) with hs | hs <;> linarith
  rw [hc, e]

end Bracket

/-- If one permutation gives a p-value of 1, any number of copies of it does. -/
theorem pvalue_replicate (h : IsFloat64 sqrt sum dot) {d : Fin n → Fin n → ℚ} {stat : (Fin n → Fin n → ℚ) → ℚ}
    {π : Equiv.Perm (Fin n)} (h1 : ((binary64 sqrt sum dot).permutationTest [π] d stat).pvalue = 1) (m : ℕ)
    (hm : m < 2 ^ 53) : ((binary64 sqrt sum dot).permutationTest (List.replicate m π) d stat).pvalue = 1 := by
  have e1 : round64 1 = 1 := by
    have := round64_int 1 (by norm_num)
    rwa [Int.cast_one] at this
  have a1 := (pvalue_binary64 h [π] (by norm_num) d stat).symm.trans h1
  rw [pvalue_binary64 h _ (by rwa [List.length_replicate]), List.countP_replicate, List.length_replicate]
  rw [List.countP_singleton, List.length_singleton] at a1
  split_ifs at a1 ⊢ with hlt
  · rw [div_self (by positivity), e1]
  · exfalso
    revert a1
    decide +kernel

end Dcor

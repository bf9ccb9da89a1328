/-
Algebra of the U-product and of the projections.
-/
import Verif.Proofs.Centering
import Mathlib.Algebra.Module.LinearMap.Basic
import Mathlib.Algebra.Module.Pi

namespace Dcor

open Finset

variable {n : ℕ}

/-- Real matrices. -/
abbrev RMat (n : ℕ) := Fin n → Fin n → ℝ

/-- Value of the U-product on real matrices. -/
noncomputable def uIp (a b : RMat n) : ℝ := (∑ i, ∑ j, a i j * b i j) / (n * (n - 3))

theorem uProduct_eq_uIp (hn : 3 < n) (a b : RMat n) :
    uProduct (FMat.ofReal a) (FMat.ofReal b) = .fin (uIp a b) := uProduct_ofReal hn a b

theorem uIp_comm (a b : RMat n) : uIp a b = uIp b a := by
  unfold uIp
  congr 1
  exact sum_congr rfl fun i _ => sum_congr rfl fun j _ => mul_comm _ _

theorem uIp_add_left (a b c : RMat n) : uIp (a + b) c = uIp a c + uIp b c := by
  unfold uIp
  simp only [Pi.add_apply, add_mul, sum_add_distrib, add_div]

theorem uIp_smul_left (t : ℝ) (a b : RMat n) : uIp (t • a) b = t * uIp a b := by
  unfold uIp
  simp only [Pi.smul_apply, smul_eq_mul, mul_assoc, ← mul_sum, mul_div_assoc]

theorem uIp_add_right (a b c : RMat n) : uIp a (b + c) = uIp a b + uIp a c := by
  rw [uIp_comm, uIp_add_left, uIp_comm b, uIp_comm c]

theorem uIp_smul_right (t : ℝ) (a b : RMat n) : uIp a (t • b) = t * uIp a b := by
  rw [uIp_comm, uIp_smul_left, uIp_comm]

theorem uIp_sub_left (a b c : RMat n) : uIp (a - b) c = uIp a c - uIp b c := by
  unfold uIp
  simp only [Pi.sub_apply, sub_mul, sum_sub_distrib, sub_div]

theorem uIp_sub_right (a b c : RMat n) : uIp a (b - c) = uIp a b - uIp a c := by
  rw [uIp_comm, uIp_sub_left, uIp_comm b, uIp_comm c]

theorem uIp_denom_pos (hn : 3 < n) : (0 : ℝ) < n * (n - 3) := by
  have hnR : (3 : ℝ) < n := by exact_mod_cast hn
  apply mul_pos <;> linarith

theorem uIp_self_nonneg (hn : 3 < n) (a : RMat n) : 0 ≤ uIp a a :=
  div_nonneg (sum_nonneg fun _ _ => sum_nonneg fun _ _ => mul_self_nonneg _)
    (uIp_denom_pos hn).le

theorem uIp_self_eq_zero (hn : 3 < n) (a : RMat n) : uIp a a = 0 ↔ a = 0 := by
  constructor
  · intro h
    unfold uIp at h
    rw [div_eq_zero_iff] at h
    rcases h with h | h
    · funext i j
      have h1 := (sum_eq_zero_iff_of_nonneg (fun i _ => sum_nonneg fun j _ =>
        mul_self_nonneg (a i j))).1 h i (mem_univ i)
      have h2 := (sum_eq_zero_iff_of_nonneg (fun j _ => mul_self_nonneg (a i j))).1 h1 j
        (mem_univ j)
      exact mul_self_eq_zero.1 h2
    · exact absurd h (uIp_denom_pos hn).ne'
  · rintro rfl
    simp [uIp]

/-- Cauchy-Schwarz for the U-product. -/
theorem uIp_cauchy (hn : 3 < n) (a b : RMat n) : uIp a b ^ 2 ≤ uIp a a * uIp b b := by
  have h : ∀ t : ℝ, 0 ≤ uIp (a + t • b) (a + t • b) := fun t => uIp_self_nonneg hn _
  have e : ∀ t : ℝ, uIp (a + t • b) (a + t • b)
      = uIp a a + 2 * t * uIp a b + t ^ 2 * uIp b b := by
    intro t
    rw [uIp_add_left, uIp_add_right, uIp_add_right, uIp_smul_left, uIp_smul_left, uIp_smul_right,
      uIp_smul_right, uIp_comm b a]
    ring
  have hb := uIp_self_nonneg hn b
  rcases hb.eq_or_lt with hb0 | hb0
  · have : b = 0 := (uIp_self_eq_zero hn b).1 hb0.symm
    subst this
    simp [uIp]
  · have := h (-(uIp a b) / uIp b b)
    rw [e] at this
    have h2 : 0 ≤ (uIp a a + 2 * (-(uIp a b) / uIp b b) * uIp a b
        + (-(uIp a b) / uIp b b) ^ 2 * uIp b b) * uIp b b := mul_nonneg this hb0.le
    have h3 : (uIp a a + 2 * (-(uIp a b) / uIp b b) * uIp a b
        + (-(uIp a b) / uIp b b) ^ 2 * uIp b b) * uIp b b = uIp a a * uIp b b - uIp a b ^ 2 := by
      field_simp
      ring
    linarith

/-- Orthogonal projection on real matrices. -/
noncomputable def projFun (c a : RMat n) : RMat n :=
  if uIp c c = 0 then 0 else (uIp a c / uIp c c) • c

theorem uProjection_ofReal (hn : 3 < n) (c a : RMat n) :
    uProjection (FMat.ofReal c) (FMat.ofReal a) = FMat.ofReal (projFun c a) := by
  unfold uProjection projFun
  rw [uProduct_eq_uIp hn]
  by_cases h : uIp c c = 0
  · have : (FP.fin (uIp c c) : FP ℝ).IsZero := h
    rw [if_pos this, if_pos h]
    rfl
  · have : ¬ (FP.fin (uIp c c) : FP ℝ).IsZero := h
    rw [if_neg this, if_neg h]
    funext i j
    rw [uProduct_eq_uIp hn, FP.fin_div _ h]
    rfl

theorem uComplementary_ofReal (hn : 3 < n) (c a : RMat n) :
    uComplementaryProjection (FMat.ofReal c) (FMat.ofReal a)
      = FMat.ofReal (a - projFun c a) := by
  unfold uComplementaryProjection
  rw [uProjection_ofReal hn]
  funext i j
  simp [FMat.ofReal]

theorem projFun_add (c a b : RMat n) : projFun c (a + b) = projFun c a + projFun c b := by
  unfold projFun
  split_ifs
  · simp
  · rw [uIp_add_left, add_div, add_smul]

theorem projFun_smul (c : RMat n) (t : ℝ) (a : RMat n) :
    projFun c (t • a) = t • projFun c a := by
  unfold projFun
  split_ifs
  · simp
  · rw [uIp_smul_left, smul_smul, mul_div_assoc]

theorem projFun_self (hn : 3 < n) (c : RMat n) : projFun c c = c := by
  unfold projFun
  split_ifs with h
  · exact ((uIp_self_eq_zero hn c).1 h).symm
  · rw [div_self h, one_smul]

theorem projFun_span (c a : RMat n) : ∃ t : ℝ, projFun c a = t • c := by
  unfold projFun
  split_ifs
  · exact ⟨0, by simp⟩
  · exact ⟨_, rfl⟩

theorem projFun_idem (hn : 3 < n) (c a : RMat n) : projFun c (projFun c a) = projFun c a := by
  obtain ⟨t, ht⟩ := projFun_span c a
  rw [ht, projFun_smul, projFun_self hn]

theorem uIp_projFun (hn : 3 < n) (c a : RMat n) : uIp (projFun c a) c = uIp a c := by
  unfold projFun
  split_ifs with h
  · have : c = 0 := (uIp_self_eq_zero hn c).1 h
    subst this
    simp [uIp]
  · rw [uIp_smul_left, div_mul_cancel₀ _ h]

theorem compl_orth (hn : 3 < n) (c a : RMat n) : uIp (a - projFun c a) c = 0 := by
  rw [uIp_sub_left, uIp_projFun hn, sub_self]

theorem compl_idem (hn : 3 < n) (c a : RMat n) :
    (a - projFun c a) - projFun c (a - projFun c a) = a - projFun c a := by
  have : projFun c (a - projFun c a) = 0 := by
    unfold projFun
    split_ifs with h
    · rfl
    · have h1 := compl_orth hn c a
      unfold projFun at h1
      rw [if_neg h] at h1
      rw [h1, zero_div, zero_smul]
  rw [this, sub_zero]

end Dcor

/-
How the statistics of the permutation tests behave under similarity transformations of the samples, and
their largest value over all permutations.
-/
import Verif.Proofs.SpecAlg
import Verif.Proofs.Independence
import Verif.Proofs.Homogeneity

namespace Dcor

open Finset

variable {n p q p' q' : ℕ}

namespace FP

theorem fin_mul_pinf {c : ℝ} (hc : 0 < c) : (.fin c * .pinf : FP ℝ) = .pinf := by
  show FP.infOfSign c = _
  unfold FP.infOfSign
  rw [if_neg hc.ne', if_pos hc]

theorem fin_mul_ninf {c : ℝ} (hc : 0 < c) : (.fin c * .ninf : FP ℝ) = .ninf := by
  show FP.neg (FP.infOfSign c) = _
  unfold FP.infOfSign
  rw [if_neg hc.ne', if_pos hc]
  rfl

theorem lt_scale {c : ℝ} (hc : 0 < c) (a b : FP ℝ) : FP.lt (.fin c * a) (.fin c * b) ↔ FP.lt a b := by
  cases a <;> cases b <;> simp only [fin_mul_pinf hc, fin_mul_ninf hc, FP.fin_mul, FP.mul_nan, FP.lt_fin,
    mul_lt_mul_iff_right₀ hc] <;> simp [FP.lt]

theorem mul_add_pos {c : ℝ} (hc : 0 < c) (a b : FP ℝ) :
    (.fin c * (a + b) : FP ℝ) = .fin c * a + .fin c * b := by
  have h1 : ∀ x : ℝ, (.fin x + .pinf : FP ℝ) = .pinf := fun _ => rfl
  have h2 : ∀ x : ℝ, (.fin x + .ninf : FP ℝ) = .ninf := fun _ => rfl
  have h3 : ∀ x : ℝ, (.pinf + .fin x : FP ℝ) = .pinf := fun _ => rfl
  have h4 : ∀ x : ℝ, (.ninf + .fin x : FP ℝ) = .ninf := fun _ => rfl
  have h5 : (.pinf + .ninf : FP ℝ) = .nan := rfl
  have h6 : (.ninf + .pinf : FP ℝ) = .nan := rfl
  have h7 : (.pinf + .pinf : FP ℝ) = .pinf := rfl
  have h8 : (.ninf + .ninf : FP ℝ) = .ninf := rfl
  cases a <;> cases b <;> simp only [FP.nan_add, FP.add_nan, FP.mul_nan, FP.fin_mul, FP.fin_add, h1, h2, h3,
    h4, h5, h6, h7, h8, fin_mul_pinf hc, fin_mul_ninf hc, mul_add]

theorem mul_sum_pos {ι : Type*} {c : ℝ} (hc : 0 < c) (s : Finset ι) (f : ι → FP ℝ) :
    (.fin c * ∑ i ∈ s, f i : FP ℝ) = ∑ i ∈ s, .fin c * f i := by
  classical
  induction s using Finset.induction_on with
  | empty =>
    rw [Finset.sum_empty, Finset.sum_empty, FP.zero_def, FP.fin_mul, mul_zero]
  | insert a s ha ih => rw [Finset.sum_insert ha, Finset.sum_insert ha, mul_add_pos hc, ih]

end FP

namespace Spec

theorem permPvalue_congr {t0 t0' : FP ℝ} {t t' : ℕ → FP ℝ} {B : ℕ}
    (h : ∀ i < B, FP.lt t0 (t i) ↔ FP.lt t0' (t' i)) : permPvalue t0 t B = permPvalue t0' t' B := by
  classical
  unfold permPvalue countAbove
  have : ((range B).filter fun i => FP.lt t0 (t i)) = (range B).filter fun i => FP.lt t0' (t' i) :=
    filter_congr fun i hi => h i (mem_range.1 hi)
  rw [this]

theorem permPvalue_min {t0 : FP ℝ} {t : ℕ → FP ℝ} {B : ℕ} (h : ∀ i < B, ¬ FP.lt t0 (t i)) :
    permPvalue t0 t B = 1 / (B + 1) := by
  classical
  unfold permPvalue countAbove
  rw [filter_false_of_mem fun i hi => h i (mem_range.1 hi)]
  simp

theorem distMat_similar {c : ℝ} (hc : 0 ≤ c) (α : ℝ) {X : Fin n → Fin p → ℝ} {X' : Fin n → Fin p' → ℝ}
    (h : ∀ i j, ∑ k, (X' i k - X' j k) ^ 2 = c ^ 2 * ∑ k, (X i k - X j k) ^ 2) :
    distMat α X' = (c ^ α) • distMat α X := by
  funext i j
  simp only [distMat, dist, Pi.smul_apply, smul_eq_mul, h]
  rw [Real.sqrt_mul (sq_nonneg c), Real.sqrt_sq hc, Real.mul_rpow hc (Real.sqrt_nonneg _)]

theorem dcovStat_similar {c d : ℝ} (hc : 0 ≤ c) (hd : 0 ≤ d) (α : ℝ) {X : Fin n → Fin p → ℝ}
    {X' : Fin n → Fin p' → ℝ} {Y : Fin n → Fin q → ℝ} {Y' : Fin n → Fin q' → ℝ}
    (hX : ∀ i j, ∑ k, (X' i k - X' j k) ^ 2 = c ^ 2 * ∑ k, (X i k - X j k) ^ 2)
    (hY : ∀ i j, ∑ k, (Y' i k - Y' j k) ^ 2 = d ^ 2 * ∑ k, (Y i k - Y j k) ^ 2) :
    dcovStat α X' Y' = c ^ α * d ^ α * dcovStat α X Y := by
  unfold dcovStat
  rw [distMat_similar hc α hX, distMat_similar hd α hY, dcovSqr_smul_left, dcovSqr_smul_right]
  ring

theorem uInner_smul_left (t : ℝ) (a b : RMat n) : uInner (t • a) b = t * uInner a b := by
  unfold uInner
  simp only [Pi.smul_apply, smul_eq_mul, mul_assoc, ← mul_sum, mul_div_assoc]

theorem uInner_smul_right (t : ℝ) (a b : RMat n) : uInner a (t • b) = t * uInner a b := by
  unfold uInner
  simp only [Pi.smul_apply, smul_eq_mul, mul_left_comm _ t, ← mul_sum, mul_div_assoc]

theorem residualMat_similar {c e : ℝ} (hc : 0 ≤ c) (he : 0 < e) (α : ℝ) {r r' : ℕ}
    {X : Fin n → Fin p → ℝ} {X' : Fin n → Fin p' → ℝ} {Z : Fin n → Fin r → ℝ} {Z' : Fin n → Fin r' → ℝ}
    (hX : ∀ i j, ∑ k, (X' i k - X' j k) ^ 2 = c ^ 2 * ∑ k, (X i k - X j k) ^ 2)
    (hZ : ∀ i j, ∑ k, (Z' i k - Z' j k) ^ 2 = e ^ 2 * ∑ k, (Z i k - Z j k) ^ 2) :
    residualMat α Z' X' = (c ^ α) • residualMat α Z X := by
  unfold residualMat
  rw [distMat_similar hc α hX, distMat_similar he.le α hZ, uCentre_smul, uCentre_smul]
  have he' : e ^ α ≠ 0 := (Real.rpow_pos_of_pos he α).ne'
  generalize uCentre (distMat α Z) = z
  generalize uCentre (distMat α X) = x
  generalize e ^ α = s at he'
  generalize c ^ α = t
  unfold uResidual
  rw [uInner_smul_left, uInner_smul_right, uInner_smul_left, uInner_smul_right]
  by_cases h0 : uInner z z = 0
  · rw [if_pos (by rw [h0]; simp), if_pos h0]
  · rw [if_neg (mul_ne_zero he' (mul_ne_zero he' h0)), if_neg h0]
    funext i j
    simp only [Pi.smul_apply, smul_eq_mul]
    field_simp

/-! ### The largest value -/

theorem dcovSqr_reorder_le {c : ℝ} (hc : 0 ≤ c) (σ : Equiv.Perm (Fin n)) (a b : RMat n)
    (h : a = c • b) : dcovSqr (reorder σ a) b ≤ dcovSqr a b := by
  subst h
  have e : reorder σ (c • b) = c • reorder σ b := rfl
  rw [e, dcovSqr_smul_left, dcovSqr_smul_left]
  refine mul_le_mul_of_nonneg_left ?_ hc
  have h1 := dcovSqr_cauchy (reorder σ b) b
  rw [dcovSqr_reorder] at h1
  exact abs_le_of_sq_le_sq' (by nlinarith) (dcovSqr_self_nonneg b) |>.2

theorem uInner_eq_sum (a b : RMat n) (ha : ∀ i, a i i = 0) : uInner a b = uIp a b := by
  rw [uInner_eq _ _ (fun i => by rw [ha, zero_mul])]
  rfl

theorem uIp_reorder (σ : Equiv.Perm (Fin n)) (a b : RMat n) :
    uIp (reorder σ a) (reorder σ b) = uIp a b := by
  unfold uIp
  congr 1
  exact sum_reorder σ fun i j => a i j * b i j

theorem uInner_reorder_le (hn : 3 < n) {c : ℝ} (hc : 0 ≤ c) (σ : Equiv.Perm (Fin n)) (a b : RMat n)
    (hb : ∀ i, b i i = 0) (h : a = c • b) : uInner (reorder σ a) b ≤ uInner a b := by
  subst h
  have e : reorder σ (c • b) = c • reorder σ b := rfl
  rw [e, uInner_smul_left, uInner_smul_left, uInner_eq_sum _ _ fun i => hb (σ i), uInner_eq_sum _ _ hb]
  refine mul_le_mul_of_nonneg_left ?_ hc
  have h1 := uIp_cauchy hn (reorder σ b) b
  rw [uIp_reorder] at h1
  exact abs_le_of_sq_le_sq' (by nlinarith) (uIp_self_nonneg hn b) |>.2

/-! ### Energy test -/

theorem energyTestStat_similar {k : ℕ} {sz : Fin k → ℕ} {c : ℝ} (hc : 0 < c) (s : EstStat) (α : ℝ)
    (T : (Fin p → ℝ) → (Fin p' → ℝ))
    (hT : ∀ u v, ∑ k, (T u k - T v k) ^ 2 = c ^ 2 * ∑ k, (u k - v k) ^ 2)
    (X : (a : Fin k) → Fin (sz a) → Fin p → ℝ) :
    energyTestStat s α (fun a i => T (X a i)) = .fin (c ^ α) * energyTestStat s α X := by
  have hd : ∀ u v, dist α (T u) (T v) = c ^ α * dist α u v := by
    intro u v
    unfold dist
    rw [hT, Real.sqrt_mul (sq_nonneg c), Real.sqrt_sq hc.le, Real.mul_rpow hc.le (Real.sqrt_nonneg _)]
  have hE : ∀ {n m : ℕ} (X : Fin n → Fin p → ℝ) (Y : Fin m → Fin p → ℝ),
      energyFP s α (fun i => T (X i)) (fun j => T (Y j)) = .fin (c ^ α) * energyFP s α X Y := by
    intro n m X Y
    unfold energyFP
    cases s with
    | v =>
      dsimp only
      split_ifs
      · rw [FP.mul_nan]
      · rw [FP.fin_mul]
        congr 1
        unfold energyV crossMean
        simp only [hd, ← mul_sum]
        ring
    | u =>
      dsimp only
      split_ifs
      · rw [FP.mul_nan]
      · rw [FP.fin_mul]
        congr 1
        unfold energyU crossMean pairMean
        simp only [hd, ← mul_sum]
        ring
  have hP : ∀ {n m : ℕ} (X : Fin n → Fin p → ℝ) (Y : Fin m → Fin p → ℝ),
      energyTestPair s α (fun i => T (X i)) (fun j => T (Y j)) = .fin (c ^ α) * energyTestPair s α X Y := by
    intro n m X Y
    unfold energyTestPair
    rw [hE]
    have : ∃ v, energyFP s α X Y = .fin v ∨ energyFP s α X Y = .nan := by
      unfold energyFP
      cases s <;> dsimp only <;> split_ifs <;> simp
    obtain ⟨v, h | h⟩ := this
    · rw [h, FP.fin_mul, FP.fin_mul, FP.fin_mul, FP.fin_mul, mul_left_comm]
    · rw [h]
      simp only [FP.mul_nan]
  unfold energyTestStat
  have hc' : 0 < c ^ α := Real.rpow_pos_of_pos hc α
  rw [FP.mul_sum_pos hc']
  refine sum_congr rfl fun a _ => ?_
  rw [FP.mul_sum_pos hc']
  exact sum_congr rfl fun b _ => hP _ _

end Spec

end Dcor

/-
Algebra of the textbook energy distance.
-/
import Verif.Proofs.Nonneg
import Verif.Spec.Energy

namespace Dcor.Spec

open Finset

variable {n m p q : ℕ}

theorem dist_comm (α : ℝ) (u v : Fin p → ℝ) : dist α u v = dist α v u := by
  unfold dist
  congr 2
  exact sum_congr rfl fun c _ => by ring

theorem crossMean_comm (α : ℝ) (X : Fin n → Fin p → ℝ) (Y : Fin m → Fin p → ℝ) :
    crossMean α X Y = crossMean α Y X := by
  unfold crossMean
  rw [sum_comm, mul_comm]
  congr 1
  exact sum_congr rfl fun i _ => sum_congr rfl fun j _ => dist_comm _ _ _

theorem energyV_comm (α : ℝ) (X : Fin n → Fin p → ℝ) (Y : Fin m → Fin p → ℝ) :
    energyV α X Y = energyV α Y X := by
  unfold energyV
  rw [crossMean_comm α X Y]
  ring

/-- Weights of the pooled sample. -/
noncomputable def poolWeight (n m : ℕ) : Fin (n + m) → ℝ :=
  Fin.append (fun _ : Fin n => 1 / (n : ℝ)) (fun _ : Fin m => -(1 / (m : ℝ)))

theorem sum_poolWeight (hn : 0 < n) (hm : 0 < m) : ∑ i, poolWeight n m i = 0 := by
  have hn' : (n : ℝ) ≠ 0 := by positivity
  have hm' : (m : ℝ) ≠ 0 := by positivity
  simp [poolWeight, Fin.sum_univ_add, hn', hm']

/-- Minus the energy distance is a quadratic form in the distances of the pooled sample. -/
theorem total_poolWeight (α : ℝ) (X : Fin n → Fin p → ℝ) (Y : Fin m → Fin p → ℝ) :
    total (fun i j => poolWeight n m i * poolWeight n m j) (distMat α (Fin.append X Y))
      = -energyV α X Y := by
  unfold total poolWeight distMat
  simp only [Fin.sum_univ_add, Fin.append_left, Fin.append_right, sum_add_distrib]
  have e1 : ∑ i, ∑ j, 1 / (n : ℝ) * (1 / (n : ℝ)) * dist α (X i) (X j) = crossMean α X X := by
    simp only [← mul_sum]
    unfold crossMean
    ring
  have e2 : ∑ i, ∑ j, 1 / (n : ℝ) * -(1 / (m : ℝ)) * dist α (X i) (Y j) = -crossMean α X Y := by
    simp only [← mul_sum]
    unfold crossMean
    ring
  have e3 : ∑ i, ∑ j, -(1 / (m : ℝ)) * (1 / (n : ℝ)) * dist α (Y i) (X j) = -crossMean α X Y := by
    rw [crossMean_comm]
    simp only [← mul_sum]
    unfold crossMean
    ring
  have e4 : ∑ i, ∑ j, -(1 / (m : ℝ)) * -(1 / (m : ℝ)) * dist α (Y i) (Y j)
      = crossMean α Y Y := by
    simp only [← mul_sum]
    unfold crossMean
    ring
  rw [e1, e2, e3, e4]
  unfold energyV
  ring

theorem sum_sum_rank_one (c : Fin n → ℝ) (h : ∑ i, c i = 0) : ∑ i, ∑ j, c i * c j = 0 := by
  simp only [← mul_sum, h, mul_zero, sum_const_zero]

/-- The energy distance is never negative. -/
theorem energyV_nonneg (hn : 0 < n) (hm : 0 < m) (X : Fin n → Fin p → ℝ) (Y : Fin m → Fin p → ℝ)
    {α : ℝ} (hα : 0 ≤ α) (hα2 : α ≤ 2) : 0 ≤ energyV α X Y := by
  rcases hα.lt_or_eq with h | rfl
  · have := negType (isPSD_rank_one (poolWeight n m))
      (sum_sum_rank_one _ (sum_poolWeight hn hm)) (Fin.append X Y) h hα2
    rw [total_poolWeight] at this
    linarith
  · have hn' : (n : ℝ) ≠ 0 := by positivity
    have hm' : (m : ℝ) ≠ 0 := by positivity
    have e : ∀ {a b : ℕ} (A : Fin a → Fin p → ℝ) (B : Fin b → Fin p → ℝ), (a : ℝ) ≠ 0 →
        (b : ℝ) ≠ 0 → crossMean 0 A B = 1 := by
      intro a b A B ha hb
      simp [crossMean, dist, ha, hb]
    rw [energyV, e X Y hn' hm', e X X hn' hn', e Y Y hm' hm']
    norm_num

open Classical in
/-- For exponents in `(0, 2)` the energy distance vanishes exactly for equal empirical
distributions. -/
theorem energyV_eq_zero_iff (hn : 0 < n) (hm : 0 < m) (X : Fin n → Fin p → ℝ)
    (Y : Fin m → Fin p → ℝ) {α : ℝ} (hα : 0 < α) (hα2 : α < 2) :
    energyV α X Y = 0 ↔ ∀ z, (∑ i, ind X z i) / n = (∑ i, ind Y z i) / m := by
  have hn' : (n : ℝ) ≠ 0 := by positivity
  have hm' : (m : ℝ) ≠ 0 := by positivity
  have hw : ∀ z, ∑ i, poolWeight n m i * ind (Fin.append X Y) z i
      = (∑ i, ind X z i) / n - (∑ i, ind Y z i) / m := by
    intro z
    simp only [poolWeight, ind, Fin.sum_univ_add, Fin.append_left, Fin.append_right, ← mul_sum]
    ring
  constructor
  · intro h z
    have h1 : total (fun i j => poolWeight n m i * poolWeight n m j)
        (distMat α (Fin.append X Y)) = 0 := by rw [total_poolWeight, h, neg_zero]
    have h2 := negType_strict (isPSD_rank_one (poolWeight n m))
      (sum_sum_rank_one _ (sum_poolWeight hn hm)) (Fin.append X Y) hα hα2 h1
    have h3 := weight_eq_zero (poolWeight n m) (Fin.append X Y) h2 z
    rw [hw] at h3
    linarith
  · intro h
    -- sums over the pooled sample can be grouped by value
    have hf : ∀ f : (Fin p → ℝ) → ℝ, ∑ i, poolWeight n m i * f (Fin.append X Y i) = 0 := by
      intro f
      have e : ∀ i, f (Fin.append X Y i)
          = ∑ z ∈ univ.image (Fin.append X Y), ind (Fin.append X Y) z i * f z := by
        intro i
        rw [sum_eq_single (Fin.append X Y i)]
        · simp [ind]
        · intro z _ hz
          simp [ind, hz.symm]
        · intro hk
          exact absurd (mem_image_of_mem _ (mem_univ i)) hk
      rw [sum_congr rfl fun i _ => by rw [e i, mul_sum], sum_comm]
      refine sum_eq_zero fun z _ => ?_
      have : ∑ i, poolWeight n m i * (ind (Fin.append X Y) z i * f z)
          = (∑ i, poolWeight n m i * ind (Fin.append X Y) z i) * f z := by
        rw [sum_mul]
        exact sum_congr rfl fun i _ => by ring
      rw [this, hw, h z, sub_self, zero_mul]
    have h1 := total_poolWeight α X Y
    have h2 : total (fun i j => poolWeight n m i * poolWeight n m j)
        (distMat α (Fin.append X Y)) = 0 := by
      unfold total
      refine sum_eq_zero fun i _ => ?_
      simp only [mul_assoc, ← mul_sum]
      rw [show ∑ j, poolWeight n m j * distMat α (Fin.append X Y) i j = 0 from
        hf fun v => dist α (Fin.append X Y i) v, mul_zero]
    linarith

/-- The within-sample averages of the two estimators. -/
theorem crossMean_self (hn : 2 ≤ n) {α : ℝ} (hα : 0 < α) (X : Fin n → Fin p → ℝ) :
    crossMean α X X = pairMean α X - pairMean α X / n := by
  have hn' : (2 : ℝ) ≤ n := by exact_mod_cast hn
  have h1 : ∑ i, ∑ j, dist α (X i) (X j)
      = ∑ i, ∑ j ∈ univ.filter (· ≠ i), dist α (X i) (X j) := by
    refine sum_congr rfl fun i _ => ?_
    rw [sum_filter]
    refine sum_congr rfl fun j _ => ?_
    split_ifs with h
    · rfl
    · rw [not_not.1 h]
      exact (dist_eq_zero hα _ _).2 rfl
  unfold crossMean pairMean
  rw [h1]
  have h2 : (n : ℝ) ≠ 0 := by linarith
  have h3 : (n : ℝ) - 1 ≠ 0 := by linarith
  field_simp

theorem dist_nonneg' (α : ℝ) (u v : Fin p → ℝ) : 0 ≤ dist α u v :=
  Real.rpow_nonneg (Real.sqrt_nonneg _) _

theorem pairMean_nonneg (hn : 2 ≤ n) (α : ℝ) (X : Fin n → Fin p → ℝ) : 0 ≤ pairMean α X := by
  have hn' : (2 : ℝ) ≤ n := by exact_mod_cast hn
  have h3 : (0 : ℝ) ≤ n - 1 := by linarith
  exact div_nonneg (sum_nonneg fun i _ => sum_nonneg fun j _ => dist_nonneg' _ _ _) (by positivity)

end Dcor.Spec

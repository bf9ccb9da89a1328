/-
Closed forms of the distance statistics: exponent two, and samples with two values.
-/
import Verif.Proofs.EnergySpec
import Verif.Spec.ClosedForms

namespace Dcor.Spec

open Finset

variable {n m p q : ℕ}

theorem dist_two (u v : Fin p → ℝ) : dist 2 u v = ∑ c, (u c - v c) ^ 2 := by
  rw [dist_eq_sqDist_rpow, show (2 : ℝ) / 2 = 1 by norm_num, Real.rpow_one]
  rfl

theorem centre_sum {ι : Type} (s : Finset ι) (g : ι → RMat n) (i j : Fin n) :
    centre (fun i j => ∑ c ∈ s, g c i j) i j = ∑ c ∈ s, centre (g c) i j := by
  unfold centre
  rw [sum_add_distrib, sum_sub_distrib, sum_sub_distrib, ← sum_div, ← sum_div, ← sum_div]
  rw [sum_comm (s := s), sum_comm (s := s) (f := fun c k => g c k j), sum_comm (s := s)]
  congr 2
  exact sum_congr rfl fun k _ => sum_comm

/-- The centred matrix of squared differences has rank one. -/
theorem centre_sq (f : Fin n → ℝ) (i j : Fin n) :
    centre (fun i j => (f i - f j) ^ 2) i j = -2 * ((f i - avg f) * (f j - avg f)) := by
  have hn : (n : ℝ) ≠ 0 := by
    have := i.pos
    positivity
  have e1 : ∀ i, ∑ k, (f i - f k) ^ 2 = n * f i ^ 2 - 2 * f i * (∑ k, f k) + ∑ k, f k ^ 2 := by
    intro i
    simp only [sub_sq, sum_add_distrib, sum_sub_distrib, sum_const, card_univ, Fintype.card_fin,
      nsmul_eq_mul, mul_sum]
  have e2 : ∑ k, (f k - f j) ^ 2 = n * f j ^ 2 - 2 * f j * (∑ k, f k) + ∑ k, f k ^ 2 := by
    rw [← e1 j]
    exact sum_congr rfl fun k _ => by ring
  have e3 : ∑ k, ∑ l, (f k - f l) ^ 2 = 2 * n * (∑ k, f k ^ 2) - 2 * (∑ k, f k) ^ 2 := by
    simp only [e1, sum_add_distrib, sum_sub_distrib, ← mul_sum, ← sum_mul, sum_const, card_univ,
      Fintype.card_fin, nsmul_eq_mul]
    ring
  unfold centre avg
  dsimp only
  rw [e1, e2, e3]
  field_simp
  ring

theorem centre_distMat_two (X : Fin n → Fin p → ℝ) (i j : Fin n) :
    centre (distMat 2 X) i j
      = -2 * ∑ c, (X i c - avg fun k => X k c) * (X j c - avg fun k => X k c) := by
  have : distMat 2 X = fun i j => ∑ c, (X i c - X j c) ^ 2 := by
    funext i j
    exact dist_two _ _
  rw [this, centre_sum, mul_sum]
  exact sum_congr rfl fun c _ => centre_sq (fun k => X k c) i j

/-- With exponent two the squared distance covariance is four times the squared Frobenius norm of the
cross-covariance matrix. -/
theorem dcovSqr_two (X : Fin n → Fin p → ℝ) (Y : Fin n → Fin q → ℝ) :
    dcovSqr (distMat 2 X) (distMat 2 Y)
      = 4 * ∑ c, ∑ d, cov (fun i => X i c) (fun i => Y i d) ^ 2 := by
  have key : ∑ i, ∑ j, centre (distMat 2 X) i j * centre (distMat 2 Y) i j
      = 4 * ∑ c, ∑ d, (∑ i, (X i c - avg fun k => X k c) * (Y i d - avg fun k => Y k d)) ^ 2 := by
    simp only [centre_distMat_two]
    have : ∀ i j, (-2 * ∑ c, (X i c - avg fun k => X k c) * (X j c - avg fun k => X k c))
        * (-2 * ∑ d, (Y i d - avg fun k => Y k d) * (Y j d - avg fun k => Y k d))
        = 4 * ∑ c, ∑ d, ((X i c - avg fun k => X k c) * (Y i d - avg fun k => Y k d))
          * ((X j c - avg fun k => X k c) * (Y j d - avg fun k => Y k d)) := by
      intro i j
      rw [mul_mul_mul_comm, sum_mul_sum]
      norm_num
      exact sum_congr rfl fun c _ => sum_congr rfl fun d _ => by ring
    simp only [this, ← mul_sum]
    congr 1
    calc _ = ∑ i, ∑ c, ∑ d, ∑ j, ((X i c - avg fun k => X k c) * (Y i d - avg fun k => Y k d))
          * ((X j c - avg fun k => X k c) * (Y j d - avg fun k => Y k d)) := by
          refine sum_congr rfl fun i _ => ?_
          rw [sum_comm]
          exact sum_congr rfl fun c _ => sum_comm
      _ = ∑ c, ∑ d, ∑ i, ∑ j, ((X i c - avg fun k => X k c) * (Y i d - avg fun k => Y k d))
          * ((X j c - avg fun k => X k c) * (Y j d - avg fun k => Y k d)) := by
          rw [sum_comm]
          exact sum_congr rfl fun c _ => sum_comm
      _ = _ := by
          refine sum_congr rfl fun c _ => sum_congr rfl fun d _ => ?_
          rw [sq, sum_mul_sum]
  unfold dcovSqr cov
  rw [key, mul_div_assoc, sum_div]
  congr 1
  refine sum_congr rfl fun c _ => ?_
  rw [sum_div]
  exact sum_congr rfl fun d _ => by rw [div_pow]

/-- If the distances are multiples of the squared differences of numbers, the squared distance covariance is
a multiple of the squared covariance. -/
theorem dcovSqr_sq (f g : Fin n → ℝ) :
    dcovSqr (fun i j => (f i - f j) ^ 2) (fun i j => (g i - g j) ^ 2) = 4 * cov f g ^ 2 := by
  have h := dcovSqr_two (fun i (_ : Fin 1) => f i) (fun i (_ : Fin 1) => g i)
  have e : ∀ f : Fin n → ℝ, distMat 2 (fun i (_ : Fin 1) => f i) = fun i j => (f i - f j) ^ 2 := by
    intro f
    funext i j
    rw [distMat, dist_two, Fin.sum_univ_one]
  rw [e, e] at h
  simpa using h

theorem cov_self_nonneg (f : Fin n → ℝ) : 0 ≤ cov f f :=
  div_nonneg (sum_nonneg fun _ _ => mul_self_nonneg _) (Nat.cast_nonneg n)

theorem sqrt_ratio_sq (c vx vy : ℝ) (hx : 0 ≤ vx) (hy : 0 ≤ vy) :
    ratio (4 * c ^ 2) (4 * vx ^ 2) (4 * vy ^ 2) = (c / Real.sqrt (vx * vy)) ^ 2 := by
  unfold ratio
  have e : 4 * vx ^ 2 * (4 * vy ^ 2) = (4 * (vx * vy)) ^ 2 := by ring
  have h0 := mul_nonneg hx hy
  rw [e]
  split_ifs with h
  · have : vx * vy = 0 := by
      have := pow_eq_zero_iff (two_ne_zero) |>.1 h
      linarith
    rw [this]
    simp
  · rw [abs_of_nonneg (sq_nonneg _), Real.sqrt_sq (by linarith), div_pow, Real.sq_sqrt h0]
    rw [mul_div_mul_left _ _ (by norm_num)]

theorem dcorSqr_sq (f g : Fin n → ℝ) :
    dcorSqr (fun i j => (f i - f j) ^ 2) (fun i j => (g i - g j) ^ 2) = pearson f g ^ 2 := by
  unfold dcorSqr pearson
  rw [dcovSqr_sq, dcovSqr_sq, dcovSqr_sq,
    sqrt_ratio_sq _ _ _ (cov_self_nonneg f) (cov_self_nonneg g)]

/-- For a sample with two values all powers of the distances are proportional. -/
theorem distMat_binary {f : Fin n → ℝ} {a b : ℝ} (hab : a ≠ b) (h : ∀ i, f i = a ∨ f i = b) {α : ℝ}
    (hα : α ≠ 0) :
    distMat α (fun i (_ : Fin 1) => f i)
      = (|a - b| ^ α / |a - b| ^ 2) • fun i j : Fin n => (f i - f j) ^ 2 := by
  have h0 : |a - b| ≠ 0 := abs_ne_zero.2 (sub_ne_zero.2 hab)
  funext i j
  have e : distMat α (fun i (_ : Fin 1) => f i) i j = |f i - f j| ^ α := by
    unfold distMat dist
    rw [Fin.sum_univ_one, Real.sqrt_sq_eq_abs]
  rw [e]
  show _ = |a - b| ^ α / |a - b| ^ 2 * (f i - f j) ^ 2
  rcases h i with h1 | h1 <;> rcases h j with h2 | h2 <;> rw [h1, h2]
  · simp [Real.zero_rpow hα]
  · rw [sq_abs, div_mul_cancel₀ _ (pow_ne_zero 2 (sub_ne_zero.2 hab))]
  · rw [abs_sub_comm b a, ← sq_abs (b - a), abs_sub_comm b a, div_mul_cancel₀ _ (pow_ne_zero 2 h0)]
  · simp [Real.zero_rpow hα]

theorem dcorSqr_smul_right {t : ℝ} (ht : 0 < t) (a b : RMat n) : dcorSqr a (t • b) = dcorSqr a b := by
  rw [dcorSqr_comm, dcorSqr_smul_left ht, dcorSqr_comm]

/-- For samples with two values each the distance correlation is the absolute value of Pearson's
correlation, for every exponent. -/
theorem dcorSqr_binary {f g : Fin n → ℝ} {a b c d : ℝ} (hab : a ≠ b) (hcd : c ≠ d)
    (hf : ∀ i, f i = a ∨ f i = b) (hg : ∀ i, g i = c ∨ g i = d) {α : ℝ} (hα : α ≠ 0) :
    dcorSqr (distMat α (fun i (_ : Fin 1) => f i)) (distMat α (fun i (_ : Fin 1) => g i))
      = pearson f g ^ 2 := by
  have pos : ∀ {a b : ℝ}, a ≠ b → 0 < |a - b| ^ α / |a - b| ^ 2 := fun {a b} h => by
    have := abs_pos.2 (sub_ne_zero.2 h)
    exact div_pos (Real.rpow_pos_of_pos this _) (pow_pos this 2)
  rw [distMat_binary hab hf hα, distMat_binary hcd hg hα, dcorSqr_smul_left (pos hab),
    dcorSqr_smul_right (pos hcd), dcorSqr_sq]

/-! ### Group labels -/

theorem avg_append (n m : ℕ) (a b : ℝ) :
    avg (Fin.append (fun _ : Fin n => a) (fun _ : Fin m => b)) = (n * a + m * b) / (n + m) := by
  unfold avg
  rw [Fin.sum_univ_add]
  simp

/-- The distance covariance between a pooled sample and its group labels is a multiple of the energy
distance between the groups. -/
theorem dcovSqr_labels (hn : 0 < n) (hm : 0 < m) (X : Fin n → Fin p → ℝ) (Y : Fin m → Fin p → ℝ) {a b : ℝ}
    (hab : a ≠ b) {α : ℝ} (hα : α ≠ 0) :
    dcovSqr (distMat α (Fin.append X Y)) (distMat α fun i (_ : Fin 1) =>
        Fin.append (fun _ : Fin n => a) (fun _ : Fin m => b) i)
      = 2 * |a - b| ^ α * (n * m / (n + m) ^ 2) ^ 2 * energyV α X Y := by
  have hn' : (n : ℝ) ≠ 0 := by positivity
  have hm' : (m : ℝ) ≠ 0 := by positivity
  have hnm : (n : ℝ) + m ≠ 0 := by positivity
  have h0 : |a - b| ≠ 0 := abs_ne_zero.2 (sub_ne_zero.2 hab)
  set L := Fin.append (fun _ : Fin n => a) (fun _ : Fin m => b) with hL
  have hbin : ∀ i, L i = a ∨ L i = b := by
    intro i
    induction i using Fin.addCases with
    | left i => left; simp [hL]
    | right i => right; simp [hL]
  rw [distMat_binary hab hbin hα, dcovSqr_smul_right, dcovSqr_eq_total, total_neg_left, neg_neg]
  have e : (centre fun i j => (L i - L j) ^ 2) = (-2 * ((a - b) * (n * m / (n + m))) ^ 2) •
      fun i j => poolWeight n m i * poolWeight n m j := by
    have hd : ∀ i, L i - avg L = (a - b) * (n * m / (n + m)) * poolWeight n m i := by
      intro i
      rw [hL, avg_append]
      induction i using Fin.addCases with
      | left i => simp only [Fin.append_left, poolWeight]; field_simp; ring
      | right i => simp only [Fin.append_right, poolWeight]; field_simp; ring
    funext i j
    rw [centre_sq, hd, hd]
    simp only [Pi.smul_apply, smul_eq_mul]
    ring
  have ht : ∀ (t : ℝ) (M K : RMat (n + m)), total (t • M) K = t * total M K := by
    intro t M K
    unfold total
    rw [mul_sum]
    refine sum_congr rfl fun i _ => ?_
    rw [mul_sum]
    exact sum_congr rfl fun j _ => by simp only [Pi.smul_apply, smul_eq_mul]; ring
  rw [e, ht, total_poolWeight]
  rw [mul_pow, ← sq_abs (a - b)]
  push_cast
  field_simp

/-! ### Energy distance with exponent two -/

theorem energyV_two (hn : 0 < n) (hm : 0 < m) (X : Fin n → Fin p → ℝ) (Y : Fin m → Fin p → ℝ) :
    energyV 2 X Y = 2 * ∑ c, (avg (fun i => X i c) - avg (fun i => Y i c)) ^ 2 := by
  have h := total_poolWeight 2 X Y
  have hs := sum_poolWeight hn hm
  have key : total (fun i j => poolWeight n m i * poolWeight n m j) (distMat 2 (Fin.append X Y))
      = -(2 * ∑ c, (∑ i, poolWeight n m i * Fin.append X Y i c) ^ 2) := by
    generalize poolWeight n m = w at hs
    generalize Fin.append X Y = Z
    have e : ∀ i, ∑ j, w i * w j * distMat 2 Z i j
        = ∑ c, (w i * (∑ j, w j * Z j c ^ 2) - 2 * (w i * Z i c) * (∑ j, w j * Z j c)) := by
      intro i
      simp only [distMat, dist_two, mul_sum]
      rw [sum_comm]
      refine sum_congr rfl fun c _ => ?_
      rw [← sum_sub_distrib]
      have : ∑ j, w i * w j * (Z i c - Z j c) ^ 2 = w i * Z i c ^ 2 * (∑ j, w j)
          + ∑ j, (w i * (w j * Z j c ^ 2) - 2 * (w i * Z i c) * (w j * Z j c)) := by
        rw [mul_sum, ← sum_add_distrib]
        exact sum_congr rfl fun j _ => by ring
      rw [this, hs, mul_zero, zero_add]
    unfold total
    rw [sum_congr rfl fun i _ => e i, sum_comm, mul_sum, ← sum_neg_distrib]
    refine sum_congr rfl fun c _ => ?_
    rw [sum_sub_distrib, ← sum_mul, hs, ← sum_mul, ← mul_sum]
    ring
  have hc : ∀ c, ∑ i, poolWeight n m i * Fin.append X Y i c
      = avg (fun i => X i c) - avg (fun i => Y i c) := by
    intro c
    unfold avg
    simp only [poolWeight, Fin.sum_univ_add, Fin.append_left, Fin.append_right, ← mul_sum]
    ring
  rw [key] at h
  simp only [hc] at h
  linarith

end Dcor.Spec

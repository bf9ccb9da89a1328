/-
The distance variance is at most Gini's mean difference and at most the standard deviation.
-/
import Verif.Spec.Dispersion
import Verif.Proofs.Nonneg
import Verif.Proofs.FromTerms
import Verif.Proofs.Stability

namespace Dcor.Spec

open Finset

variable {n p : ℕ}

theorem IsPSD.quadratic {M : RMat n} (hM : IsPSD M) (hs : Symm M) (i j : Fin n) (s t : ℝ) :
    0 ≤ s ^ 2 * M i i + 2 * (s * t) * M i j + t ^ 2 * M j j := by
  have h := hM fun k => (if k = i then s else 0) + (if k = j then t else 0)
  have inner : ∀ k, ∑ l, ((if k = i then s else 0) + (if k = j then t else 0))
      * ((if l = i then s else 0) + (if l = j then t else 0)) * M k l
      = ((if k = i then s else 0) + (if k = j then t else 0)) * (s * M k i + t * M k j) := by
    intro k
    rw [show (∑ l, ((if k = i then s else 0) + (if k = j then t else 0))
      * ((if l = i then s else 0) + (if l = j then t else 0)) * M k l)
      = ((if k = i then s else 0) + (if k = j then t else 0))
        * ∑ l, ((if l = i then s else 0) + (if l = j then t else 0)) * M k l by
        rw [mul_sum]
        exact sum_congr rfl fun l _ => mul_assoc _ _ _]
    simp only [add_mul, sum_add_distrib, ite_mul, zero_mul, sum_ite_eq', mem_univ, if_true]
  simp only [inner] at h
  simp only [add_mul, sum_add_distrib, ite_mul, zero_mul, sum_ite_eq', mem_univ, if_true] at h
  rw [hs j i] at h
  linarith

theorem IsPSD.sq_le {M : RMat n} (hM : IsPSD M) (hs : Symm M) (i j : Fin n) : M i j ^ 2 ≤ M i i * M j j := by
  have h := discrim_le_zero (a := M i i) (b := 2 * M i j) (c := M j j) fun x => by
    have := hM.quadratic hs i j x 1
    linarith
  unfold discrim at h
  linarith

/-- The sum of the squared entries of a positive semidefinite matrix is at most the square of its trace. -/
theorem IsPSD.sum_sq_le {M : RMat n} (hM : IsPSD M) (hs : Symm M) : ∑ i, ∑ j, M i j * M i j ≤ (∑ i, M i i) ^ 2 := by
  rw [sq, sum_mul_sum]
  exact sum_le_sum fun i _ => sum_le_sum fun j _ => by rw [← sq]; exact hM.sq_le hs i j

theorem sum_centre_diag (a : RMat n) (h0 : ∀ i, a i i = 0) (hs : Symm a) (hn : 0 < n) :
    ∑ i, centre a i i = -(∑ i, ∑ j, a i j) / n := by
  have hn' : (n : ℝ) ≠ 0 := by positivity
  unfold centre
  simp only [h0, sum_add_distrib, sum_sub_distrib, ← sum_div, sum_const_zero, sum_const, card_univ, Fintype.card_fin,
    nsmul_eq_mul]
  rw [show ∑ i, ∑ k, a k i = ∑ i, ∑ k, a i k from sum_congr rfl fun i _ => sum_congr rfl fun k _ => hs k i]
  field_simp
  ring

theorem gini_eq (α : ℝ) (X : Fin n → Fin p → ℝ) : gini α X = (∑ i, ∑ j, distMat α X i j) / n ^ 2 := rfl

theorem gini_nonneg (α : ℝ) (X : Fin n → Fin p → ℝ) : 0 ≤ gini α X :=
  div_nonneg (sum_nonneg fun _ _ => sum_nonneg fun _ _ => dist_nonneg _ _ _) (by positivity)

/-- The squared distance variance is at most the square of Gini's mean difference. -/
theorem dvar_le_gini (hn : 0 < n) (X : Fin n → Fin p → ℝ) {α : ℝ} (h0 : 0 < α) (h2 : α ≤ 2) :
    dcovSqr (distMat α X) (distMat α X) ≤ gini α X ^ 2 := by
  have hn' : (0 : ℝ) < n := by positivity
  have h := (isPSD_neg_centre_distMat X h0 h2).sum_sq_le (fun i j => by
    simp only [Pi.neg_apply]
    rw [centre_symm _ (distMat_symm α X) i j])
  simp only [Pi.neg_apply, neg_mul_neg, sum_neg_distrib, even_two.neg_pow] at h
  rw [sum_centre_diag _ (fun i => dist_self h0.ne' _) (distMat_symm α X) hn] at h
  unfold dcovSqr
  rw [gini_eq, div_le_iff₀ (by positivity)]
  refine h.trans (le_of_eq ?_)
  field_simp

/-- The squared distance variance in terms of the sums over pairs and triples. -/
theorem dvar_eq (hn : 0 < n) (a : RMat n) (ha : Symm a) :
    dcovSqr a a = (∑ i, ∑ j, a i j) ^ 2 / n ^ 4
      - (∑ i, ∑ j, ∑ k, (a j k ^ 2 - (a i j - a i k) ^ 2)) / n ^ 3 := by
  have hn' : (n : ℝ) ≠ 0 := by positivity
  have e : ∑ i, ∑ j, ∑ k, (a j k ^ 2 - (a i j - a i k) ^ 2)
      = 2 * (∑ i, (∑ j, a i j) * ∑ j, a i j) - n * ∑ i, ∑ j, a i j * a i j := by
    have e1 : ∀ i, ∑ j, ∑ k, (a j k ^ 2 - (a i j - a i k) ^ 2)
        = (∑ j, ∑ k, a j k * a j k) - 2 * n * (∑ j, a i j * a i j) + 2 * ((∑ j, a i j) * ∑ j, a i j) := by
      intro i
      have : ∀ j, ∑ k, (a j k ^ 2 - (a i j - a i k) ^ 2)
          = (∑ k, a j k * a j k) - n * (a i j * a i j) - (∑ k, a i k * a i k) + 2 * (a i j * ∑ k, a i k) := by
        intro j
        rw [sum_congr rfl fun k _ => show a j k ^ 2 - (a i j - a i k) ^ 2
          = a j k * a j k - a i j * a i j - a i k * a i k + 2 * (a i j * a i k) by ring]
        rw [sum_add_distrib, sum_sub_distrib, sum_sub_distrib, sum_const, card_univ, Fintype.card_fin, nsmul_eq_mul,
          ← mul_sum, ← mul_sum]
      simp only [this, sum_add_distrib, sum_sub_distrib, ← mul_sum, ← sum_mul, sum_const, card_univ, Fintype.card_fin,
        nsmul_eq_mul]
      ring
    rw [sum_congr rfl fun i _ => e1 i, sum_add_distrib, sum_sub_distrib, sum_const, card_univ, Fintype.card_fin,
      nsmul_eq_mul, ← mul_sum, ← mul_sum]
    ring
  rw [dcovSqr_eq_terms a a ha ha hn, e]
  field_simp
  ring

theorem sum_sq_sub (r : Fin n → ℝ) :
    ∑ i, ∑ j, (r i - r j) ^ 2 = 2 * (n * ∑ i, r i * r i) - 2 * (∑ i, r i) ^ 2 := by
  have : ∀ i, ∑ j, (r i - r j) ^ 2 = n * (r i * r i) - 2 * (r i * ∑ j, r j) + ∑ j, r j * r j := by
    intro i
    rw [sum_congr rfl fun j _ => show (r i - r j) ^ 2 = r i * r i - 2 * (r i * r j) + r j * r j by ring]
    rw [sum_add_distrib, sum_sub_distrib, sum_const, card_univ, Fintype.card_fin, nsmul_eq_mul, ← mul_sum, ← mul_sum]
  rw [sum_congr rfl fun i _ => this i, sum_add_distrib, sum_sub_distrib, sum_const, card_univ, Fintype.card_fin,
    nsmul_eq_mul, ← mul_sum, ← mul_sum, ← sum_mul]
  ring

/-- Half the mean of the squared distances, minus the squared distance variance. -/
theorem half_sub_dvar (hn : 0 < n) (a : RMat n) (ha : Symm a) :
    (∑ i, ∑ j, a i j ^ 2) / (2 * n ^ 2) - dcovSqr a a
      = ((∑ i, ∑ j, a i j) ^ 2 / n ^ 4 - dcovSqr a a) / 2
        + (∑ i, ∑ j, ((∑ k, a i k) - ∑ k, a j k) ^ 2) / (2 * n ^ 4) := by
  have hn' : (n : ℝ) ≠ 0 := by positivity
  have e : ∑ i, ∑ j, ((∑ k, a i k) - ∑ k, a j k) ^ 2
      = 2 * (n * ∑ i, (∑ j, a i j) * ∑ j, a i j) - 2 * (∑ i, ∑ j, a i j) ^ 2 := by
    exact sum_sq_sub fun i => ∑ k, a i k
  rw [dcovSqr_eq_terms a a ha ha hn, e]
  simp only [sq (a _ _)]
  field_simp
  ring

/-- The squared distance variance is at most half the mean of the squared distances. -/
theorem dvar_le_half (hn : 0 < n) (X : Fin n → Fin p → ℝ) {α : ℝ} (h0 : 0 < α) (h2 : α ≤ 2) :
    dcovSqr (distMat α X) (distMat α X) ≤ (∑ i, ∑ j, distMat α X i j ^ 2) / (2 * n ^ 2) := by
  have h1 := half_sub_dvar hn (distMat α X) (distMat_symm α X)
  have h3 := dvar_le_gini hn X h0 h2
  rw [gini_eq, div_pow, ← pow_mul] at h3
  have h4 : 0 ≤ (∑ i, ∑ j, ((∑ k, distMat α X i k) - ∑ k, distMat α X j k) ^ 2) / (2 * (n : ℝ) ^ 4) := by positivity
  linarith

/-- The mean of the squared distances is twice the sum of the variances of the components. -/
theorem mean_sq_dist (hn : 0 < n) (X : Fin n → Fin p → ℝ) :
    (∑ i, ∑ j, distMat 1 X i j ^ 2) / (2 * n ^ 2) = totalVar X := by
  have hn' : (n : ℝ) ≠ 0 := by positivity
  have e : ∀ i j, distMat 1 X i j ^ 2 = ∑ c, (X i c - X j c) ^ 2 := by
    intro i j
    unfold distMat dist
    rw [Real.rpow_one, Real.sq_sqrt (sum_nonneg fun _ _ => sq_nonneg _)]
  simp only [e]
  rw [show ∑ i, ∑ j, ∑ c, (X i c - X j c) ^ 2 = ∑ c, ∑ i, ∑ j, (X i c - X j c) ^ 2 by
    rw [show ∑ c, ∑ i, ∑ j, (X i c - X j c) ^ 2 = ∑ i, ∑ c, ∑ j, (X i c - X j c) ^ 2 from sum_comm]
    exact sum_congr rfl fun i _ => sum_comm]
  rw [sum_div]
  refine sum_congr rfl fun c _ => ?_
  unfold cov avg
  have e1 : ∑ i, ∑ j, (X i c - X j c) ^ 2 = 2 * (n * ∑ i, X i c * X i c) - 2 * (∑ i, X i c) ^ 2 := by
    exact sum_sq_sub fun i => X i c
  have e2 : ∑ i, (X i c - (∑ i, X i c) / n) * (X i c - (∑ i, X i c) / n)
      = (∑ i, X i c * X i c) - (∑ i, X i c) ^ 2 / n := by
    have : ∀ i, (X i c - (∑ i, X i c) / n) * (X i c - (∑ i, X i c) / n)
        = X i c * X i c - 2 * ((∑ i, X i c) / n) * X i c + ((∑ i, X i c) / n) ^ 2 := fun i => by ring
    simp only [this, sum_add_distrib, sum_sub_distrib, ← mul_sum, sum_const, card_univ, Fintype.card_fin, nsmul_eq_mul]
    field_simp
    ring
  rw [e1, e2]
  field_simp

theorem totalVar_nonneg (hn : 0 < n) (X : Fin n → Fin p → ℝ) : 0 ≤ totalVar X := by
  rw [← mean_sq_dist hn]
  positivity

/-! ### Equality -/

theorem triple_nonneg {α : ℝ} (h0 : 0 ≤ α) (h1 : α ≤ 1) (X : Fin n → Fin p → ℝ) (i j k : Fin n) :
    0 ≤ distMat α X j k ^ 2 - (distMat α X i j - distMat α X i k) ^ 2 := by
  have t1 : distMat α X i j ≤ distMat α X i k + distMat α X k j := dist_triangle_rpow h0 h1 _ _ _
  have t2 : distMat α X i k ≤ distMat α X i j + distMat α X j k := dist_triangle_rpow h0 h1 _ _ _
  rw [distMat_symm α X k j] at t1
  rw [sub_nonneg]
  exact sq_le_sq' (by linarith) (by linarith)

/-- The squared distance variance is the square of Gini's mean difference exactly if there are at most two different
observations. -/
theorem dvar_eq_gini_iff (hn : 0 < n) (X : Fin n → Fin p → ℝ) {α : ℝ} (h0 : 0 < α) (h1 : α ≤ 1) :
    dcovSqr (distMat α X) (distMat α X) = gini α X ^ 2 ↔ ∀ i j k, X i = X j ∨ X j = X k ∨ X i = X k := by
  have hn' : (0 : ℝ) < n := by positivity
  have z : ∀ i j, distMat α X i j = 0 ↔ X i = X j := fun i j => dist_eq_zero h0 _ _
  have nn : ∀ i j, 0 ≤ distMat α X i j := fun i j => dist_nonneg _ _ _
  have s := distMat_symm α X
  rw [dvar_eq hn _ (distMat_symm α X), gini_eq, div_pow, ← pow_mul, sub_eq_self, div_eq_zero_iff,
    or_iff_left (by positivity)]
  rw [sum_eq_zero_iff_of_nonneg fun i _ => sum_nonneg fun j _ => sum_nonneg fun k _ => triple_nonneg h0.le h1 X i j k]
  have hin : ∀ i, (∑ j, ∑ k, (distMat α X j k ^ 2 - (distMat α X i j - distMat α X i k) ^ 2) = 0)
      ↔ ∀ j k, distMat α X j k ^ 2 - (distMat α X i j - distMat α X i k) ^ 2 = 0 := by
    intro i
    rw [sum_eq_zero_iff_of_nonneg fun j _ => sum_nonneg fun k _ => triple_nonneg h0.le h1 X i j k]
    refine ⟨fun h j k => ?_, fun h j _ => sum_eq_zero fun k _ => h j k⟩
    exact (sum_eq_zero_iff_of_nonneg fun k _ => triple_nonneg h0.le h1 X i j k).1 (h j (mem_univ j)) k (mem_univ k)
  simp only [mem_univ, forall_const, hin]
  constructor
  · intro h i j k
    rw [← z, ← z, ← z]
    have a := h k i j
    have b := h i j k
    have c := h j i k
    rw [s k i, s k j] at a
    rw [s j i] at c
    have pa := nn i j
    have pb := nn j k
    have pc := nn i k
    rcases sq_eq_sq_iff_eq_or_eq_neg.1 (sub_eq_zero.1 a) with a | a <;>
      rcases sq_eq_sq_iff_eq_or_eq_neg.1 (sub_eq_zero.1 b) with b | b <;>
      rcases sq_eq_sq_iff_eq_or_eq_neg.1 (sub_eq_zero.1 c) with c | c <;>
      first
      | exact Or.inl (by linarith)
      | exact Or.inr (Or.inl (by linarith))
      | exact Or.inr (Or.inr (by linarith))
  · intro h i j k
    have zz : ∀ {u v w : Fin n}, X u = X v → distMat α X u w = distMat α X v w := fun e => by
      unfold distMat
      rw [e]
    rcases h i j k with e | e | e
    · rw [(z i j).2 e, zz e]
      ring
    · rw [(z j k).2 e, s i j, s i k, zz e]
      ring
    · rw [(z i k).2 e, zz e, s j k]
      ring

/-- The squared distance variance is half the mean of the squared distances exactly if there are at most two different
observations, and equally many of each. -/
theorem dvar_eq_half_iff (hn : 0 < n) (X : Fin n → Fin p → ℝ) {α : ℝ} (h0 : 0 < α) (h1 : α ≤ 1) :
    dcovSqr (distMat α X) (distMat α X) = (∑ i, ∑ j, distMat α X i j ^ 2) / (2 * n ^ 2) ↔
      (∀ i j k, X i = X j ∨ X j = X k ∨ X i = X k) ∧
        ∀ i j, Fintype.card {k // X k = X i} = Fintype.card {k // X k = X j} := by
  classical
  have hn' : (0 : ℝ) < n := by positivity
  have h3 := dvar_le_gini hn X h0 (h1.trans one_le_two)
  have e := half_sub_dvar hn (distMat α X) (distMat_symm α X)
  have hg : (∑ i, ∑ j, distMat α X i j) ^ 2 / (n : ℝ) ^ 4 = gini α X ^ 2 := by
    rw [gini_eq, div_pow, ← pow_mul]
  rw [hg] at e
  have h4 : 0 ≤ (∑ i, ∑ j, ((∑ k, distMat α X i k) - ∑ k, distMat α X j k) ^ 2) / (2 * (n : ℝ) ^ 4) := by positivity
  have h5 : (∑ i, ∑ j, ((∑ k, distMat α X i k) - ∑ k, distMat α X j k) ^ 2) / (2 * (n : ℝ) ^ 4) = 0
      ↔ ∀ i j, ∑ k, distMat α X i k = ∑ k, distMat α X j k := by
    rw [div_eq_zero_iff, or_iff_left (by positivity), sum_eq_zero_iff_of_nonneg fun i _ => sum_nonneg fun j _ => sq_nonneg _]
    refine ⟨fun h i j => ?_, fun h i _ => sum_eq_zero fun j _ => by rw [h i j, sub_self]; ring⟩
    have := (sum_eq_zero_iff_of_nonneg fun j _ => sq_nonneg _).1 (h i (mem_univ i)) j (mem_univ j)
    exact sub_eq_zero.1 (pow_eq_zero_iff two_ne_zero |>.1 this)
  have h6 : dcovSqr (distMat α X) (distMat α X) = (∑ i, ∑ j, distMat α X i j ^ 2) / (2 * n ^ 2) ↔
      dcovSqr (distMat α X) (distMat α X) = gini α X ^ 2 ∧ ∀ i j, ∑ k, distMat α X i k = ∑ k, distMat α X j k := by
    rw [← h5]
    constructor
    · intro h
      constructor <;> linarith
    · rintro ⟨ha, hb⟩
      linarith
  rw [h6, dvar_eq_gini_iff hn X h0 h1]
  refine and_congr_right fun two => ?_
  have row : ∀ i j, X i ≠ X j → ∑ k, distMat α X i k = distMat α X i j * (n - Fintype.card {k // X k = X i}) := by
    intro i j hij
    have : ∀ k, distMat α X i k = distMat α X i j - if X k = X i then distMat α X i j else 0 := by
      intro k
      split_ifs with hk
      · rw [sub_self]
        exact (dist_eq_zero h0 _ _).2 hk.symm
      · rw [sub_zero]
        have : X k = X j := by
          rcases two i j k with h | h | h
          · exact absurd h hij
          · exact h.symm
          · exact absurd h.symm hk
        unfold distMat
        rw [this]
    rw [sum_congr rfl fun k _ => this k, sum_sub_distrib, ← sum_filter, sum_const, sum_const, card_univ, Fintype.card_fin,
      Fintype.card_subtype, nsmul_eq_mul, nsmul_eq_mul]
    ring
  refine forall_congr' fun i => forall_congr' fun j => ?_
  by_cases hij : X i = X j
  · refine iff_of_true (sum_congr rfl fun k _ => ?_) ?_
    · unfold distMat
      rw [hij]
    · simp only [hij]
  · have hd : distMat α X i j ≠ 0 := fun h => hij ((dist_eq_zero h0 _ _).1 h)
    rw [row i j hij, row j i (Ne.symm hij), distMat_symm α X j i, mul_right_inj' hd]
    constructor
    · intro h
      have : (Fintype.card {k // X k = X i} : ℝ) = Fintype.card {k // X k = X j} := by linarith
      exact_mod_cast this
    · intro h
      rw [h]

end Dcor.Spec

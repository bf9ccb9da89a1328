/-
Samples in which one observation goes to infinity.
-/
import Verif.Proofs.TestInvariance
import Verif.Proofs.FromTerms
import Verif.Proofs.CharacZero

namespace Dcor.Spec

open Finset Filter Topology

variable {n p q : ℕ} {α : ℝ}

/-- The sample with the observation `i` moved by `t u`. -/
def moved (X : Fin n → Fin p → ℝ) (i : Fin n) (u : Fin p → ℝ) (t : ℝ) : Fin n → Fin p → ℝ :=
  fun k c => if k = i then X k c + t * u c else X k c

/-- The sample with `u` at `i`, and zero elsewhere. -/
def spike (i : Fin n) (u : Fin p → ℝ) : Fin n → Fin p → ℝ := fun k c => if k = i then u c else 0

/-- The distances of `spike`, up to a factor. -/
def star (i : Fin n) : Fin n → Fin n → ℝ := fun k l => (if k = i then 1 else 0) + (if l = i then 1 else 0)
  - if k = i then (if l = i then 2 else 0) else 0

theorem distMat_spike (hα : α ≠ 0) (i : Fin n) (u : Fin p → ℝ) : distMat α (spike i u) = dist α u 0 • star i := by
  funext k l
  simp only [distMat, Pi.smul_apply, smul_eq_mul, star]
  have h : ∀ k, spike i u k = if k = i then u else 0 := by
    intro k; funext c; unfold spike; split_ifs <;> rfl
  rw [h, h]
  by_cases hk : k = i <;> by_cases hl : l = i <;> simp [hk, hl, dist_self hα]
  · norm_num
  · rw [dist_symm]

theorem distMat_reorder_spike (π : Equiv.Perm (Fin n)) (i : Fin n) (u : Fin p → ℝ) :
    (fun k => spike i u (π k)) = spike (π.symm i) u := by
  funext k c
  simp only [spike, Equiv.eq_symm_apply]

theorem dcovSqr_star (i : Fin n) (b : Fin n → Fin n → ℝ) : dcovSqr (star i) b = -2 * centre b i i / n ^ 2 := by
  have hn : (n : ℝ) ≠ 0 := by have := i.pos; positivity
  have e : ∑ k, ∑ l, centre (star i) k l * centre b k l = ∑ k, ∑ l, star i k l * centre b k l := by
    have r : ∀ (f : Fin n → ℝ), ∑ k, ∑ l, f k * centre b k l = 0 := fun f => by
      simp only [← mul_sum, sum_centre_row, mul_zero, sum_const_zero]
    have c : ∀ (f : Fin n → ℝ), ∑ k, ∑ l, f l * centre b k l = 0 := fun f => by
      rw [sum_comm]; simp only [← mul_sum, sum_centre_col, mul_zero, sum_const_zero]
    have h1 := r fun k => (∑ l, star i k l) / n
    have h2 := c fun l => (∑ k, star i k l) / n
    have h3 := r fun _ => (∑ k, ∑ l, star i k l) / n ^ 2
    have hc : ∀ k l, centre (star i) k l = star i k l - (∑ l, star i k l) / n - (∑ k, star i k l) / n
      + (∑ k, ∑ l, star i k l) / n ^ 2 := fun _ _ => rfl
    simp only [hc, sub_mul, add_mul, sum_add_distrib, sum_sub_distrib, h1, h2, h3]
    ring
  rw [dcovSqr, e]
  congr 1
  have r := sum_centre_row b i
  have c := sum_centre_col b i
  simp only [star, sub_mul, add_mul, sum_add_distrib, sum_sub_distrib, ite_mul, one_mul, zero_mul, sum_ite_eq', mem_univ,
    if_true, sum_ite_irrel, sum_const_zero, c, r]
  ring

theorem centre_diag_eq {b : Fin n → Fin n → ℝ} (hs : ∀ i j, b i j = b j i) (h0 : ∀ i, b i i = 0) (i : Fin n) :
    centre b i i = (∑ k, ∑ l, b k l) / n ^ 2 - 2 * (∑ k, b i k) / n := by
  have e : ∑ k, b k i = ∑ k, b i k := sum_congr rfl fun k _ => hs k i
  rw [centre, h0, e]
  ring

theorem sum_star_row (i k : Fin n) : ∑ l, star i k l = if k = i then (n : ℝ) - 1 else 1 := by
  by_cases h : k = i
  · simp [star, h, sum_add_distrib, sum_sub_distrib]; ring
  · simp [star, h]

theorem dcovSqr_star_star (i j : Fin n) :
    dcovSqr (star i) (star j) = 4 * ((if i = j then 1 else 0) - 1 / n) ^ 2 / n ^ 2 := by
  have hn : (n : ℝ) ≠ 0 := by have := i.pos; positivity
  rw [dcovSqr_star, centre_diag_eq (fun k l => by simp only [star]; split_ifs <;> ring) (fun k => by
    simp only [star]; split_ifs <;> ring)]
  have e : ∑ k, ∑ l, star j k l = 2 * ((n : ℝ) - 1) := by
    simp only [sum_star_row]
    have : ∀ k, (if k = j then (n : ℝ) - 1 else 1) = 1 + if k = j then (n : ℝ) - 2 else 0 := by
      intro k; split_ifs <;> ring
    simp only [this, sum_add_distrib, sum_ite_eq', mem_univ, if_true, sum_const, card_univ, Fintype.card_fin, nsmul_eq_mul]
    ring
  rw [e, sum_star_row]
  split_ifs <;> · field_simp; ring

/-- The moved sample, scaled. -/
theorem distMat_moved {t : ℝ} (ht : 0 < t) (X : Fin n → Fin p → ℝ) (i : Fin n) (u : Fin p → ℝ) :
    distMat α (moved X i u t) = t ^ α • distMat α fun k c => t⁻¹ * moved X i u t k c := by
  refine distMat_similar ht.le α fun k l => ?_
  rw [mul_sum]
  refine sum_congr rfl fun c _ => ?_
  field_simp

theorem moved_tendsto (X : Fin n → Fin p → ℝ) (i : Fin n) (u : Fin p → ℝ) :
    Tendsto (fun t => fun k c => t⁻¹ * moved X i u t k c) atTop (𝓝 (spike i u)) := by
  refine tendsto_pi_nhds.2 fun k => tendsto_pi_nhds.2 fun c => ?_
  by_cases hk : k = i
  · simp only [moved, spike, hk, if_true]
    have h : Tendsto (fun t : ℝ => t⁻¹ * X i c + u c) atTop (𝓝 (0 * X i c + u c)) :=
      (tendsto_inv_atTop_zero.mul_const _).add_const _
    rw [zero_mul, zero_add] at h
    refine h.congr' ?_
    filter_upwards [eventually_gt_atTop 0] with t ht
    field_simp
  · simp only [moved, spike, hk, if_false]
    have h : Tendsto (fun t : ℝ => t⁻¹ * X k c) atTop (𝓝 (0 * X k c)) := tendsto_inv_atTop_zero.mul_const _
    rwa [zero_mul] at h

theorem continuous_distMat (hα : 0 ≤ α) : Continuous fun X : Fin n → Fin p → ℝ => distMat α X := by
  refine continuous_pi fun k => continuous_pi fun l => ?_
  exact (Charac.dist_continuous hα).comp (by fun_prop : Continuous fun X : Fin n → Fin p → ℝ => (X k, X l))

theorem continuous_dcovSqr : Continuous fun r : (Fin n → Fin n → ℝ) × (Fin n → Fin n → ℝ) => dcovSqr r.1 r.2 := by
  unfold dcovSqr centre
  fun_prop

theorem dcovSqr_tendsto {ι : Type*} {l : Filter ι} {a b : ι → Fin n → Fin n → ℝ} {A B : Fin n → Fin n → ℝ}
    (ha : Tendsto a l (𝓝 A)) (hb : Tendsto b l (𝓝 B)) : Tendsto (fun s => dcovSqr (a s) (b s)) l (𝓝 (dcovSqr A B)) := by
  have h := (continuous_dcovSqr (n := n)).tendsto (A, B)
  generalize hf : (fun r : (Fin n → Fin n → ℝ) × (Fin n → Fin n → ℝ) => dcovSqr r.1 r.2) = f at h
  have e : ∀ x y, dcovSqr x y = f (x, y) := fun x y => by rw [← hf]
  simp only [e] at h ⊢
  exact h.comp (ha.prodMk_nhds hb)

theorem dcorSqr_tendsto {ι : Type*} {l : Filter ι} {a b : ι → Fin n → Fin n → ℝ} {A B : Fin n → Fin n → ℝ}
    (ha : Tendsto a l (𝓝 A)) (hb : Tendsto b l (𝓝 B)) (hA : dcovSqr A A ≠ 0) (hB : dcovSqr B B ≠ 0) :
    Tendsto (fun s => dcorSqr (a s) (b s)) l (𝓝 (dcorSqr A B)) := by
  have h1 := dcovSqr_tendsto ha hb
  have h2 := dcovSqr_tendsto ha ha
  have h3 := dcovSqr_tendsto hb hb
  have hne : dcovSqr A A * dcovSqr B B ≠ 0 := mul_ne_zero hA hB
  have hs : Real.sqrt |dcovSqr A A * dcovSqr B B| ≠ 0 := (Real.sqrt_pos.2 (abs_pos.2 hne)).ne'
  have h4 := h1.div (h2.mul h3).abs.sqrt hs
  unfold dcorSqr ratio
  rw [if_neg hne]
  refine h4.congr' ?_
  filter_upwards [(h2.mul h3).eventually_ne hne] with s hs
  rw [if_neg hs]
  rfl

end Dcor.Spec

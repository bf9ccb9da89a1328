/-
Consequences of negative type for the squared distance covariance: it is never negative, and it is
zero exactly when the empirical joint distribution is the product of its marginals.
-/
import Verif.Proofs.NegType
import Verif.Proofs.SpecAlg

namespace Dcor.Spec

open Finset

variable {n p q : ℕ}

theorem total_comm (M K : RMat n) : total M K = total K M :=
  sum_congr rfl fun _ _ => sum_congr rfl fun _ _ => mul_comm _ _

theorem total_neg_left (M K : RMat n) : total (-M) K = -total M K := by
  simp [total]

theorem sum_sum_row (M K : RMat n) (t : ℝ) :
    ∑ i, ∑ j, M i j * ((∑ k, K i k) / t) = ∑ i, (∑ j, M i j) * (∑ k, K i k) / t := by
  refine sum_congr rfl fun i _ => ?_
  rw [← sum_mul, mul_div_assoc]

theorem sum_sum_col (M K : RMat n) (t : ℝ) :
    ∑ i, ∑ j, M i j * ((∑ k, K k j) / t) = ∑ j, (∑ i, M i j) * (∑ k, K k j) / t := by
  rw [sum_comm]
  refine sum_congr rfl fun i _ => ?_
  rw [← sum_mul, mul_div_assoc]

theorem total_centre_expand (M K : RMat n) :
    total M (centre K) = total M K - (∑ i, (∑ j, M i j) * (∑ k, K i k) / n)
      - (∑ j, (∑ i, M i j) * (∑ k, K k j) / n)
      + (∑ i, ∑ j, M i j) * (∑ i, ∑ j, K i j) / n ^ 2 := by
  rw [← sum_sum_row, ← sum_sum_col]
  unfold total centre
  rw [mul_div_assoc, sum_mul]
  simp only [sum_mul, ← sum_sub_distrib, ← sum_add_distrib]
  exact sum_congr rfl fun i _ => sum_congr rfl fun j _ => by ring

/-- Double centring is self-adjoint. -/
theorem total_centre_left (M K : RMat n) : total (centre M) K = total M (centre K) := by
  rw [total_comm, total_centre_expand, total_centre_expand, total_comm K M]
  simp only [mul_comm]

theorem sum_centre (M : RMat n) : ∑ i, ∑ j, centre M i j = 0 := by
  rcases Nat.eq_zero_or_pos n with rfl | hn
  · simp
  have hn' : (n : ℝ) ≠ 0 := by positivity
  have h := total_centre_expand (fun _ _ => 1) M
  simp only [total, one_mul, sum_const, card_univ, Fintype.card_fin, nsmul_eq_mul, mul_one] at h
  rw [h]
  have h1 : ∑ x : Fin n, (n : ℝ) * (∑ k, M x k) / n = ∑ i, ∑ j, M i j :=
    sum_congr rfl fun i _ => by field_simp
  have h2 : ∑ x : Fin n, (n : ℝ) * (∑ k, M k x) / n = ∑ i, ∑ j, M i j := by
    rw [sum_comm (f := fun i j => M i j)]
    exact sum_congr rfl fun i _ => by field_simp
  rw [h1, h2]
  field_simp
  ring

theorem centre_centre (M : RMat n) : centre (centre M) = centre M := by
  rcases Nat.eq_zero_or_pos n with rfl | hn
  · funext i; exact i.elim0
  have hn' : (n : ℝ) ≠ 0 := by positivity
  have hr : ∀ i, ∑ k, centre M i k = 0 := by
    intro i
    unfold centre
    simp only [sum_add_distrib, sum_sub_distrib, sum_const, card_univ, Fintype.card_fin,
      nsmul_eq_mul, ← sum_div]
    rw [sum_comm (f := fun x i => M i x)]
    field_simp
    ring
  have hc : ∀ j, ∑ k, centre M k j = 0 := by
    intro i
    unfold centre
    simp only [sum_add_distrib, sum_sub_distrib, sum_const, card_univ, Fintype.card_fin,
      nsmul_eq_mul, ← sum_div]
    field_simp
    ring
  funext i j
  rw [centre, hr, hc, sum_centre]
  simp

/-- The deviation of a vector from its mean. -/
noncomputable def dev (d : Fin n → ℝ) (i : Fin n) : ℝ := d i - (∑ k, d k) / n

theorem centre_rank_one (d : Fin n → ℝ) :
    centre (fun i j => d i * d j) = fun i j => dev d i * dev d j := by
  rcases Nat.eq_zero_or_pos n with rfl | hn
  · funext i; exact i.elim0
  have hn' : (n : ℝ) ≠ 0 := by positivity
  funext i j
  unfold centre dev
  rw [← mul_sum, ← sum_mul, ← sum_mul_sum]
  field_simp
  ring

theorem isPSD_rank_one (d : Fin n → ℝ) : IsPSD fun i j => d i * d j := by
  intro e
  have : ∑ i, ∑ j, e i * e j * (d i * d j) = (∑ i, e i * d i) * (∑ i, e i * d i) := by
    rw [sum_mul_sum]
    exact sum_congr rfl fun i _ => sum_congr rfl fun j _ => by ring
  rw [this]
  exact mul_self_nonneg _

theorem isPSD_iff_total (M : RMat n) :
    IsPSD M ↔ ∀ d : Fin n → ℝ, 0 ≤ total (fun i j => d i * d j) M := Iff.rfl

theorem IsPSD.centre {M : RMat n} (hM : IsPSD M) : IsPSD (centre M) := by
  rw [isPSD_iff_total]
  intro d
  rw [← total_centre_left, centre_rank_one]
  exact hM _

theorem isPSD_neg_centre_distMat (X : Fin n → Fin p → ℝ) {α : ℝ} (hα : 0 < α) (hα2 : α ≤ 2) :
    IsPSD (-centre (distMat α X)) := by
  rw [isPSD_iff_total]
  intro d
  rw [total_comm, total_neg_left, total_comm, ← total_centre_left, centre_rank_one]
  have h := negType (isPSD_rank_one (dev d)) ?_ X hα hα2
  · linarith
  · have := sum_centre fun i j => d i * d j
    rwa [centre_rank_one] at this

theorem sum_neg_centre (M : RMat n) : ∑ i, ∑ j, (-centre M) i j = 0 := by
  simp only [Pi.neg_apply, sum_neg_distrib, sum_centre, neg_zero]

theorem dcovSqr_eq_total (a b : RMat n) : dcovSqr a b = -total (-centre b) a / n ^ 2 := by
  rw [total_neg_left, neg_neg, ← centre_centre b, total_centre_left,
    total_comm]
  rfl

/-- The squared distance covariance is never negative. -/
theorem dcovSqr_nonneg (X : Fin n → Fin p → ℝ) (Y : Fin n → Fin q → ℝ) {α : ℝ} (hα : 0 < α)
    (hα2 : α ≤ 2) : 0 ≤ dcovSqr (distMat α X) (distMat α Y) := by
  rw [dcovSqr_eq_total]
  have h := negType (isPSD_neg_centre_distMat Y hα hα2) (sum_neg_centre _) X hα hα2
  have h2 : 0 ≤ -total (-centre (distMat α Y)) (distMat α X) := by linarith
  positivity

theorem dcorSqr_nonneg (X : Fin n → Fin p → ℝ) (Y : Fin n → Fin q → ℝ) {α : ℝ} (hα : 0 < α)
    (hα2 : α ≤ 2) : 0 ≤ dcorSqr (distMat α X) (distMat α Y) := by
  unfold dcorSqr ratio
  split_ifs
  · exact le_rfl
  · exact div_nonneg (dcovSqr_nonneg X Y hα hα2) (Real.sqrt_nonneg _)

/-! ### The equality kernel -/

section Equality

variable {A B : Type} [DecidableEq A] [DecidableEq B]

/-- Indicator of the observations equal to `z`. -/
def ind (x : Fin n → A) (z : A) (i : Fin n) : ℝ := if x i = z then 1 else 0

/-- Equality kernel. -/
def eqKer (x : Fin n → A) (i j : Fin n) : ℝ := if x i = x j then 1 else 0

theorem eqKer_eq (x : Fin n → A) (i j : Fin n) :
    eqKer x i j = ∑ z ∈ univ.image x, ind x z i * ind x z j := by
  unfold eqKer ind
  rw [sum_eq_single (x i)]
  · simp [eq_comm]
  · intro z _ hz
    rw [if_neg hz.symm, zero_mul]
  · intro h
    exact absurd (mem_image_of_mem x (mem_univ i)) h

theorem total_sum_right {ι : Type} (s : Finset ι) (M : RMat n) (K : ι → RMat n) :
    total M (fun i j => ∑ z ∈ s, K z i j) = ∑ z ∈ s, total M (K z) := by
  unfold total
  simp only [mul_sum]
  have h : ∀ i, ∑ j, ∑ z ∈ s, M i j * K z i j = ∑ z ∈ s, ∑ j, M i j * K z i j :=
    fun i => sum_comm
  simp only [h]
  exact sum_comm

theorem total_rank_one (c d : Fin n → ℝ) :
    total (fun i j => c i * c j) (fun i j => d i * d j) = (∑ i, c i * d i) ^ 2 := by
  unfold total
  rw [sq, sum_mul_sum]
  exact sum_congr rfl fun i _ => sum_congr rfl fun j _ => by ring

theorem total_eqKer (M : RMat n) (x : Fin n → A) :
    total M (eqKer x) = ∑ z ∈ univ.image x, total M (fun i j => ind x z i * ind x z j) := by
  rw [← total_sum_right]
  congr 1
  funext i j
  exact eqKer_eq x i j

theorem isPSD_eqKer (x : Fin n → A) : IsPSD (eqKer x) := by
  rw [isPSD_iff_total]
  intro d
  rw [total_eqKer]
  refine sum_nonneg fun z _ => ?_
  rw [total_rank_one]
  exact sq_nonneg _

/-- A vector whose form for the equality kernel vanishes has total weight zero on each value. -/
theorem weight_eq_zero (c : Fin n → ℝ) (x : Fin n → A)
    (h : total (fun i j => c i * c j) (eqKer x) = 0) (z : A) : ∑ i, c i * ind x z i = 0 := by
  rw [total_eqKer, sum_eq_zero_iff_of_nonneg fun z _ => by rw [total_rank_one]; exact sq_nonneg _]
    at h
  by_cases hz : z ∈ univ.image x
  · have := h z hz
    rw [total_rank_one] at this
    exact pow_eq_zero_iff two_ne_zero |>.mp this
  · refine sum_eq_zero fun i _ => ?_
    rw [ind, if_neg, mul_zero]
    rintro rfl
    exact hz (mem_image_of_mem x (mem_univ i))

theorem sum_dev_mul (c d : Fin n → ℝ) :
    ∑ i, dev c i * d i = ∑ i, c i * d i - (∑ i, c i) * (∑ i, d i) / n := by
  unfold dev
  simp only [sub_mul, sum_sub_distrib]
  rw [← mul_sum]
  ring

/-- If the centred equality kernels are orthogonal, the empirical distribution factorises. -/
theorem factor_of_total (x : Fin n → A) (y : Fin n → B)
    (h : total (centre (eqKer x)) (eqKer y) = 0) (z : A) (w : B) :
    ∑ i, ind x z i * ind y w i = (∑ i, ind x z i) * (∑ i, ind y w i) / n := by
  have key : total (centre (eqKer x)) (eqKer y)
      = ∑ w ∈ univ.image y, ∑ z ∈ univ.image x, (∑ i, dev (ind x z) i * ind y w i) ^ 2 := by
    rw [total_eqKer]
    refine sum_congr rfl fun w _ => ?_
    rw [total_centre_left, total_comm, total_eqKer]
    refine sum_congr rfl fun z _ => ?_
    rw [total_centre_left, total_comm, total_centre_left, total_comm, ← total_rank_one]
    rw [← centre_rank_one, total_comm, total_centre_left]
  rw [key, sum_eq_zero_iff_of_nonneg
    fun w _ => sum_nonneg fun z _ => sq_nonneg _] at h
  by_cases hz : z ∈ univ.image x
  · by_cases hw : w ∈ univ.image y
    · have h1 := h w hw
      rw [sum_eq_zero_iff_of_nonneg fun z _ => sq_nonneg _] at h1
      have h2 := pow_eq_zero_iff two_ne_zero |>.mp (h1 z hz)
      rw [sum_dev_mul] at h2
      linarith
    · have : ∀ i, ind y w i = 0 := fun i => by
        rw [ind, if_neg]
        rintro rfl
        exact hw (mem_image_of_mem y (mem_univ i))
      simp [this]
  · have : ∀ i, ind x z i = 0 := fun i => by
      rw [ind, if_neg]
      rintro rfl
      exact hz (mem_image_of_mem x (mem_univ i))
    simp [this]

/-- Under a factorising empirical distribution, sums over pairs are double sums. -/
theorem sum_of_factor (x : Fin n → A) (y : Fin n → B)
    (h : ∀ z w, ∑ i, ind x z i * ind y w i = (∑ i, ind x z i) * (∑ i, ind y w i) / n)
    (f : A → B → ℝ) : ∑ i, f (x i) (y i) = (∑ i, ∑ k, f (x i) (y k)) / n := by
  have e : ∀ i k, f (x i) (y k)
      = ∑ z ∈ univ.image x, ∑ w ∈ univ.image y, ind x z i * ind y w k * f z w := by
    intro i k
    rw [sum_eq_single (x i), sum_eq_single (y k)]
    · simp [ind]
    · intro w _ hw
      simp [ind, hw.symm]
    · intro hk
      exact absurd (mem_image_of_mem y (mem_univ k)) hk
    · intro z _ hz
      simp [ind, hz.symm]
    · intro hk
      exact absurd (mem_image_of_mem x (mem_univ i)) hk
  have e1 : ∑ i, f (x i) (y i)
      = ∑ z ∈ univ.image x, ∑ w ∈ univ.image y, (∑ i, ind x z i * ind y w i) * f z w := by
    simp only [sum_mul]
    rw [sum_congr rfl fun i _ => e i i, sum_comm]
    exact sum_congr rfl fun z _ => sum_comm
  have e2 : ∑ i, ∑ k, f (x i) (y k)
      = ∑ z ∈ univ.image x, ∑ w ∈ univ.image y,
          ((∑ i, ind x z i) * (∑ k, ind y w k)) * f z w := by
    simp only [sum_mul_sum]
    simp only [sum_mul]
    rw [sum_congr rfl fun i _ => sum_congr rfl fun k _ => e i k]
    rw [sum_congr rfl fun i _ => sum_comm, sum_comm]
    refine sum_congr rfl fun z _ => ?_
    rw [sum_congr rfl fun i _ => sum_comm, sum_comm]
  rw [e1, e2, sum_div]
  refine sum_congr rfl fun z _ => ?_
  rw [sum_div]
  refine sum_congr rfl fun w _ => ?_
  rw [h]
  ring

end Equality

open Classical in
/-- For exponents in `(0, 2)` the squared distance covariance vanishes exactly when the empirical
joint distribution is the product of its marginals. -/
theorem dcovSqr_eq_zero_iff (hn : 0 < n) (X : Fin n → Fin p → ℝ) (Y : Fin n → Fin q → ℝ) {α : ℝ}
    (hα : 0 < α) (hα2 : α < 2) :
    dcovSqr (distMat α X) (distMat α Y) = 0 ↔
      ∀ z w, ∑ i, ind X z i * ind Y w i = (∑ i, ind X z i) * (∑ i, ind Y w i) / n := by
  have hn' : (n : ℝ) ≠ 0 := by positivity
  constructor
  · intro h
    rw [dcovSqr_eq_total, div_eq_zero_iff, or_iff_left (by positivity), neg_eq_zero] at h
    have h1 := negType_strict (isPSD_neg_centre_distMat Y hα hα2.le) (sum_neg_centre _) X hα hα2 h
    have h2 : total (centre (eqKer X)) (distMat α Y) = 0 := by
      have : total (-centre (distMat α Y)) (eqKer X) = 0 := h1
      rw [total_neg_left, neg_eq_zero, total_comm] at this
      rw [total_centre_left]
      exact this
    have h3 := negType_strict (isPSD_eqKer X).centre (sum_centre _) Y hα hα2 h2
    exact factor_of_total X Y h3
  · intro h
    have key : ∑ i, ∑ j, centre (distMat α X) i j * centre (distMat α Y) i j = 0 := by
      -- entries of the centred matrices as functions of the points
      let f : (Fin p → ℝ) → (Fin p → ℝ) → ℝ := fun u v =>
        dist α u v - (∑ k, dist α u (X k)) / n - (∑ k, dist α (X k) v) / n
          + (∑ k, ∑ l, dist α (X k) (X l)) / n ^ 2
      let g : (Fin q → ℝ) → (Fin q → ℝ) → ℝ := fun u v =>
        dist α u v - (∑ k, dist α u (Y k)) / n - (∑ k, dist α (Y k) v) / n
          + (∑ k, ∑ l, dist α (Y k) (Y l)) / n ^ 2
      have hf : ∀ i j, centre (distMat α X) i j = f (X i) (X j) := fun _ _ => rfl
      have hg : ∀ i j, centre (distMat α Y) i j = g (Y i) (Y j) := fun _ _ => rfl
      have hsum := sum_centre (distMat α X)
      simp only [hf] at hsum
      simp only [hf, hg]
      rw [sum_of_factor X Y h fun u v => ∑ j, f u (X j) * g v (Y j)]
      simp only [fun i k => sum_of_factor X Y h fun u v => f (X i) u * g (Y k) v]
      rw [div_eq_zero_iff]
      left
      simp only [← sum_div]
      rw [div_eq_zero_iff]
      left
      have e : ∑ i, ∑ k, ∑ j, ∑ l, f (X i) (X j) * g (Y k) (Y l)
          = (∑ i, ∑ j, f (X i) (X j)) * (∑ k, ∑ l, g (Y k) (Y l)) := by
        rw [sum_mul_sum]
        exact sum_congr rfl fun i _ => sum_congr rfl fun k _ => by rw [sum_mul_sum]
      rw [e, hsum, zero_mul]
    unfold dcovSqr
    rw [key, zero_div]

end Dcor.Spec

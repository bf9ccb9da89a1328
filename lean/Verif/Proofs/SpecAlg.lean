/-
Algebraic facts about the textbook definitions.
-/
import Verif.Proofs.Projection
import Verif.Proofs.Api

namespace Dcor.Spec

open Finset

variable {n p q : ℕ}

theorem dcovSqr_comm (a b : RMat n) : dcovSqr a b = dcovSqr b a := by
  unfold dcovSqr
  congr 1
  exact sum_congr rfl fun i _ => sum_congr rfl fun j _ => mul_comm _ _

theorem uDcovSqr_eq_uIp (a b : RMat n) : uDcovSqr a b = uIp (uCentre a) (uCentre b) := by
  unfold uDcovSqr
  rw [uInner_eq _ _ (fun i => by rw [uCentre_diag, zero_mul])]
  rfl

theorem uDcovSqr_comm (a b : RMat n) : uDcovSqr a b = uDcovSqr b a := by
  rw [uDcovSqr_eq_uIp, uDcovSqr_eq_uIp, uIp_comm]

theorem ratio_comm (c vx vy : ℝ) : ratio c vx vy = ratio c vy vx := by
  unfold ratio
  rw [mul_comm vx vy]

theorem dcorSqr_comm (a b : RMat n) : dcorSqr a b = dcorSqr b a := by
  unfold dcorSqr
  rw [ratio_comm, dcovSqr_comm a b]

theorem uDcorSqr_comm (a b : RMat n) : uDcorSqr a b = uDcorSqr b a := by
  unfold uDcorSqr
  rw [ratio_comm, uDcovSqr_comm a b]

/-- Reorder rows and columns simultaneously. -/
def reorder (σ : Equiv.Perm (Fin n)) (a : RMat n) : RMat n := fun i j => a (σ i) (σ j)

theorem sum_reorder (σ : Equiv.Perm (Fin n)) (f : RMat n) :
    ∑ i, ∑ j, f (σ i) (σ j) = ∑ i, ∑ j, f i j := by
  rw [← Equiv.sum_comp σ (fun i => ∑ j, f i j)]
  exact sum_congr rfl fun i _ => Equiv.sum_comp σ (fun j => f (σ i) j)

theorem centre_reorder (σ : Equiv.Perm (Fin n)) (a : RMat n) :
    centre (reorder σ a) = reorder σ (centre a) := by
  funext i j
  unfold reorder centre
  rw [Equiv.sum_comp σ (fun k => a (σ i) k), Equiv.sum_comp σ (fun k => a k (σ j)),
    sum_reorder σ a]

theorem uCentre_reorder (σ : Equiv.Perm (Fin n)) (a : RMat n) :
    uCentre (reorder σ a) = reorder σ (uCentre a) := by
  funext i j
  unfold reorder uCentre
  rw [Equiv.sum_comp σ (fun k => a (σ i) k), Equiv.sum_comp σ (fun k => a k (σ j)),
    sum_reorder σ a]
  simp only [EmbeddingLike.apply_eq_iff_eq]

theorem dcovSqr_reorder (σ : Equiv.Perm (Fin n)) (a b : RMat n) :
    dcovSqr (reorder σ a) (reorder σ b) = dcovSqr a b := by
  unfold dcovSqr
  rw [centre_reorder, centre_reorder]
  congr 1
  exact sum_reorder σ (fun i j => centre a i j * centre b i j)

theorem uDcovSqr_reorder (σ : Equiv.Perm (Fin n)) (a b : RMat n) :
    uDcovSqr (reorder σ a) (reorder σ b) = uDcovSqr a b := by
  rw [uDcovSqr_eq_uIp, uDcovSqr_eq_uIp, uCentre_reorder, uCentre_reorder]
  unfold uIp
  congr 1
  exact sum_reorder σ (fun i j => uCentre a i j * uCentre b i j)

theorem distMat_reorder (σ : Equiv.Perm (Fin n)) (α : ℝ) (X : Fin n → Fin p → ℝ) :
    distMat α (fun i => X (σ i)) = reorder σ (distMat α X) := rfl

theorem dcorSqr_reorder (σ : Equiv.Perm (Fin n)) (a b : RMat n) :
    dcorSqr (reorder σ a) (reorder σ b) = dcorSqr a b := by
  unfold dcorSqr
  rw [dcovSqr_reorder, dcovSqr_reorder, dcovSqr_reorder]

theorem uDcorSqr_reorder (σ : Equiv.Perm (Fin n)) (a b : RMat n) :
    uDcorSqr (reorder σ a) (reorder σ b) = uDcorSqr a b := by
  unfold uDcorSqr
  rw [uDcovSqr_reorder, uDcovSqr_reorder, uDcovSqr_reorder]

/-! Scaling -/

theorem centre_smul (t : ℝ) (a : RMat n) : centre (t • a) = t • centre a := by
  funext i j
  simp only [centre, Pi.smul_apply, smul_eq_mul, ← mul_sum]
  ring

theorem uCentre_smul (t : ℝ) (a : RMat n) : uCentre (t • a) = t • uCentre a := by
  funext i j
  simp only [uCentre, Pi.smul_apply, smul_eq_mul, ← mul_sum]
  split_ifs <;> ring

theorem centre_sub (a b : RMat n) : centre (a - b) = centre a - centre b := by
  funext i j
  simp only [centre, Pi.sub_apply, sum_sub_distrib]
  ring

theorem dcovSqr_smul_left (t : ℝ) (a b : RMat n) : dcovSqr (t • a) b = t * dcovSqr a b := by
  unfold dcovSqr
  rw [centre_smul]
  simp only [Pi.smul_apply, smul_eq_mul, mul_assoc, ← mul_sum, mul_div_assoc]

theorem dcovSqr_smul_right (t : ℝ) (a b : RMat n) : dcovSqr a (t • b) = t * dcovSqr a b := by
  rw [dcovSqr_comm, dcovSqr_smul_left, dcovSqr_comm]

theorem uDcovSqr_smul_left (t : ℝ) (a b : RMat n) : uDcovSqr (t • a) b = t * uDcovSqr a b := by
  rw [uDcovSqr_eq_uIp, uDcovSqr_eq_uIp, uCentre_smul, uIp_smul_left]

theorem uDcovSqr_smul_right (t : ℝ) (a b : RMat n) : uDcovSqr a (t • b) = t * uDcovSqr a b := by
  rw [uDcovSqr_comm, uDcovSqr_smul_left, uDcovSqr_comm]

theorem ratio_scale {t : ℝ} (ht : 0 < t) (c vx vy : ℝ) :
    ratio (t * c) (t * (t * vx)) vy = ratio c vx vy := by
  unfold ratio
  have e : t * (t * vx) * vy = t ^ 2 * (vx * vy) := by ring
  rw [e]
  by_cases h : vx * vy = 0
  · simp [h]
  · rw [if_neg (mul_ne_zero (pow_ne_zero 2 ht.ne') h), if_neg h, abs_mul, abs_pow, abs_of_pos ht,
      Real.sqrt_mul (sq_nonneg t), Real.sqrt_sq ht.le, mul_div_mul_left _ _ ht.ne']

theorem dcorSqr_smul_left {t : ℝ} (ht : 0 < t) (a b : RMat n) :
    dcorSqr (t • a) b = dcorSqr a b := by
  unfold dcorSqr
  rw [dcovSqr_smul_left, dcovSqr_smul_left, dcovSqr_smul_right, ratio_scale ht]

theorem uDcorSqr_smul_left {t : ℝ} (ht : 0 < t) (a b : RMat n) :
    uDcorSqr (t • a) b = uDcorSqr a b := by
  unfold uDcorSqr
  rw [uDcovSqr_smul_left, uDcovSqr_smul_left, uDcovSqr_smul_right, ratio_scale ht]

theorem distMat_scale (α c : ℝ) (X : Fin n → Fin p → ℝ) :
    distMat α (fun i k => c * X i k) = (|c| ^ α) • distMat α X := by
  funext i j
  simp only [distMat, dist, Pi.smul_apply, smul_eq_mul]
  have : ∑ k, (c * X i k - c * X j k) ^ 2 = c ^ 2 * ∑ k, (X i k - X j k) ^ 2 := by
    rw [mul_sum]
    exact sum_congr rfl fun k _ => by ring
  rw [this, Real.sqrt_mul (sq_nonneg c), Real.sqrt_sq_eq_abs,
    Real.mul_rpow (abs_nonneg c) (Real.sqrt_nonneg _)]

theorem distMat_isometry (α : ℝ) (X : Fin n → Fin p → ℝ) (X' : Fin n → Fin q → ℝ)
    (h : ∀ i j, ∑ k, (X' i k - X' j k) ^ 2 = ∑ k, (X i k - X j k) ^ 2) :
    distMat α X' = distMat α X := by
  funext i j
  simp only [distMat, dist, h]

/-! Degenerate samples -/

theorem dcovSqr_self_nonneg (a : RMat n) : 0 ≤ dcovSqr a a :=
  div_nonneg (sum_nonneg fun _ _ => sum_nonneg fun _ _ => mul_self_nonneg _) (sq_nonneg _)

theorem dcovSqr_self_eq_zero (hn : 0 < n) (a : RMat n) : dcovSqr a a = 0 ↔ centre a = 0 := by
  have hn' : (n : ℝ) ^ 2 ≠ 0 := by positivity
  unfold dcovSqr
  rw [div_eq_zero_iff]
  constructor
  · rintro (h | h)
    · funext i j
      have h1 := (sum_eq_zero_iff_of_nonneg (fun i _ => sum_nonneg fun j _ =>
        mul_self_nonneg (centre a i j))).1 h i (mem_univ i)
      have h2 := (sum_eq_zero_iff_of_nonneg (fun j _ => mul_self_nonneg (centre a i j))).1 h1 j
        (mem_univ j)
      exact mul_self_eq_zero.1 h2
    · exact absurd h hn'
  · intro h
    left
    simp [h]

/-- A hollow symmetric matrix is determined by its centred version. -/
theorem centre_eq_zero (a : RMat n) (ha : Symm a) (h0 : ∀ i, a i i = 0) (hc : centre a = 0) :
    a = 0 := by
  rcases Nat.eq_zero_or_pos n with rfl | hn
  · funext i; exact i.elim0
  have hn' : (n : ℝ) ≠ 0 := by positivity
  have hcol : ∀ j, ∑ k, a k j = ∑ k, a j k := fun j => sum_congr rfl fun k _ => ha k j
  set T := ∑ k, ∑ l, a k l with hT
  have hd : ∀ i, ∑ k, a i k = T / (2 * n) := by
    intro i
    have : centre a i i = 0 := by rw [hc]; rfl
    unfold centre at this
    rw [h0, hcol, ← hT] at this
    field_simp at this ⊢
    linarith
  have hT0 : T = 0 := by
    have : T = ∑ _k : Fin n, T / (2 * n) := by
      rw [hT]
      exact sum_congr rfl fun k _ => hd k
    rw [sum_const, card_univ, Fintype.card_fin, nsmul_eq_mul] at this
    field_simp at this
    linarith
  funext i j
  have : centre a i j = 0 := by rw [hc]; rfl
  unfold centre at this
  rw [hcol, hd, hd, ← hT, hT0] at this
  simpa using this

theorem dist_eq_zero {α : ℝ} (hα : 0 < α) (u v : Fin p → ℝ) : dist α u v = 0 ↔ u = v := by
  constructor
  · intro h
    unfold dist at h
    rw [Real.rpow_eq_zero (Real.sqrt_nonneg _) hα.ne',
      Real.sqrt_eq_zero (sum_nonneg fun _ _ => sq_nonneg _)] at h
    funext k
    have := (sum_eq_zero_iff_of_nonneg (fun k _ => sq_nonneg (u k - v k))).1 h k (mem_univ k)
    exact sub_eq_zero.1 (pow_eq_zero_iff (two_ne_zero)|>.1 this)
  · rintro rfl
    exact dist_self hα.ne' _

theorem distMat_eq_zero {α : ℝ} (hα : 0 < α) (X : Fin n → Fin p → ℝ) :
    distMat α X = 0 ↔ ∀ i j, X i = X j := by
  constructor
  · intro h i j
    rw [← dist_eq_zero hα]
    exact congrFun (congrFun h i) j
  · intro h
    funext i j
    exact (dist_eq_zero hα _ _).2 (h i j)

theorem dvar_eq_zero (hn : 0 < n) {α : ℝ} (hα : 0 < α) (X : Fin n → Fin p → ℝ) :
    dcovSqr (distMat α X) (distMat α X) = 0 ↔ ∀ i j, X i = X j := by
  rw [dcovSqr_self_eq_zero hn, ← distMat_eq_zero hα]
  constructor
  · exact centre_eq_zero _ (distMat_symm α X) (distMat_diag hα.ne' X)
  · intro h
    rw [h]
    funext i j
    simp [centre]

theorem ratio_self {c : ℝ} (h : 0 < c) : ratio c c c = 1 := by
  unfold ratio
  rw [if_neg (mul_self_ne_zero.2 h.ne'), abs_mul_self, Real.sqrt_mul_self h.le, div_self h.ne']

/-- Cauchy-Schwarz for the squared distance covariance. -/
theorem dcovSqr_cauchy (a b : RMat n) : dcovSqr a b ^ 2 ≤ dcovSqr a a * dcovSqr b b := by
  unfold dcovSqr
  rw [div_pow, div_mul_div_comm, ← sq ((n : ℝ) ^ 2)]
  apply div_le_div_of_nonneg_right _ (sq_nonneg _)
  have h := Finset.sum_mul_sq_le_sq_mul_sq (univ : Finset (Fin n × Fin n))
    (fun x => centre a x.1 x.2) (fun x => centre b x.1 x.2)
  simp only [← univ_product_univ, sum_product, sq] at h ⊢
  exact h

theorem uDvar_nonneg (hn : 3 < n) (a : RMat n) : 0 ≤ uDcovSqr a a := by
  rw [uDcovSqr_eq_uIp]
  exact uIp_self_nonneg hn _

theorem abs_ratio_le_one {c vx vy : ℝ} (h : c ^ 2 ≤ vx * vy) : |ratio c vx vy| ≤ 1 := by
  unfold ratio
  split_ifs with h0
  · simp
  · have hpos : 0 < vx * vy := lt_of_le_of_ne (le_trans (sq_nonneg c) h) (Ne.symm h0)
    rw [abs_of_pos hpos, abs_div, abs_of_pos (Real.sqrt_pos.2 hpos),
      div_le_one (Real.sqrt_pos.2 hpos)]
    exact Real.abs_le_sqrt h

theorem abs_dcorSqr_le_one (a b : RMat n) : |dcorSqr a b| ≤ 1 :=
  abs_ratio_le_one (dcovSqr_cauchy a b)

theorem abs_uDcorSqr_le_one (hn : 3 < n) (a b : RMat n) : |uDcorSqr a b| ≤ 1 := by
  apply abs_ratio_le_one
  rw [uDcovSqr_eq_uIp, uDcovSqr_eq_uIp, uDcovSqr_eq_uIp]
  exact uIp_cauchy hn _ _

/-- Equality in Cauchy-Schwarz. -/
theorem dcorSqr_eq_one (hn : 0 < n) (a b : RMat n) (ha : Symm a) (hb : Symm b)
    (ha0 : ∀ i, a i i = 0) (hb0 : ∀ i, b i i = 0) (hva : dcovSqr a a ≠ 0)
    (hvb : dcovSqr b b ≠ 0) :
    dcorSqr a b = 1 ↔ ∃ t : ℝ, 0 < t ∧ a = t • b := by
  have hpa := lt_of_le_of_ne (dcovSqr_self_nonneg a) (Ne.symm hva)
  have hpb := lt_of_le_of_ne (dcovSqr_self_nonneg b) (Ne.symm hvb)
  constructor
  · intro h
    unfold dcorSqr ratio at h
    rw [if_neg (mul_ne_zero hva hvb), abs_of_pos (mul_pos hpa hpb),
      div_eq_one_iff_eq (Real.sqrt_pos.2 (mul_pos hpa hpb)).ne'] at h
    have hpos : 0 < dcovSqr a b := by rw [h]; exact Real.sqrt_pos.2 (mul_pos hpa hpb)
    have hsq : dcovSqr a b ^ 2 = dcovSqr a a * dcovSqr b b := by
      rw [h, Real.sq_sqrt (mul_pos hpa hpb).le]
    set t := dcovSqr a b / dcovSqr b b with ht
    have htpos : 0 < t := div_pos hpos hpb
    refine ⟨t, htpos, ?_⟩
    have hz : dcovSqr (a - t • b) (a - t • b) = 0 := by
      have e : dcovSqr (a - t • b) (a - t • b)
          = dcovSqr a a - 2 * t * dcovSqr a b + t ^ 2 * dcovSqr b b := by
        unfold dcovSqr
        rw [centre_sub, centre_smul]
        have : ∀ i j, (centre a - t • centre b) i j * (centre a - t • centre b) i j
            = centre a i j * centre a i j - 2 * t * (centre a i j * centre b i j)
              + t ^ 2 * (centre b i j * centre b i j) := by
          intro i j
          simp only [Pi.sub_apply, Pi.smul_apply, smul_eq_mul]
          ring
        simp only [this, sum_add_distrib, sum_sub_distrib, ← mul_sum]
        ring
      rw [e, ht]
      field_simp
      rw [← hsq]
      ring
    rw [dcovSqr_self_eq_zero hn] at hz
    have := centre_eq_zero (a - t • b) (fun i j => by
      simp only [Pi.sub_apply, Pi.smul_apply, ha i j, hb i j]) (fun i => by
      simp [ha0, hb0]) hz
    exact sub_eq_zero.1 this
  · rintro ⟨t, ht, rfl⟩
    rw [dcorSqr_smul_left ht]
    exact ratio_self hpb

end Dcor.Spec

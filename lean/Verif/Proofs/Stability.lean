/-
How much the statistics change when the observations move, and the triangle inequality of the energy
distance.
-/
import Verif.Proofs.EnergySpec
import Verif.Proofs.SpecAlg
import Mathlib.Analysis.InnerProductSpace.PiL2
import Mathlib.Analysis.MeanInequalitiesPow

namespace Dcor.Spec

open Finset

variable {n m k p q : ℕ}

/-! ### Distances -/

theorem sqrt_triangle (u v w : Fin p → ℝ) :
    Real.sqrt (∑ c, (u c - w c) ^ 2)
      ≤ Real.sqrt (∑ c, (u c - v c) ^ 2) + Real.sqrt (∑ c, (v c - w c) ^ 2) := by
  have e : ∀ a b : Fin p → ℝ, Real.sqrt (∑ c, (a c - b c) ^ 2)
      = Dist.dist (WithLp.toLp 2 a : EuclideanSpace ℝ (Fin p)) (WithLp.toLp 2 b) := by
    intro a b
    rw [EuclideanSpace.dist_eq]
    congr 1
    refine sum_congr rfl fun c _ => ?_
    rw [Real.dist_eq, sq_abs]
  rw [e, e, e]
  exact dist_triangle _ _ _

theorem dist_triangle_rpow {α : ℝ} (h0 : 0 ≤ α) (h1 : α ≤ 1) (u v w : Fin p → ℝ) :
    dist α u w ≤ dist α u v + dist α v w := by
  unfold dist
  exact (Real.rpow_le_rpow (Real.sqrt_nonneg _) (sqrt_triangle u v w) h0).trans
    (Real.rpow_add_le_add_rpow (Real.sqrt_nonneg _) (Real.sqrt_nonneg _) h0 h1)

theorem dist_le_of_move {α δ : ℝ} (h0 : 0 ≤ α) {u v : Fin p → ℝ}
    (h : Real.sqrt (∑ c, (u c - v c) ^ 2) ≤ δ) : dist α u v ≤ δ ^ α :=
  Real.rpow_le_rpow (Real.sqrt_nonneg _) h h0

theorem abs_rpow_sub_le {α : ℝ} (h0 : 0 ≤ α) (h1 : α ≤ 1) {a b t : ℝ} (ha : 0 ≤ a) (hb : 0 ≤ b)
    (ht : 0 ≤ t) (hab : a ≤ b + t) (hba : b ≤ a + t) : |a ^ α - b ^ α| ≤ t ^ α := by
  rw [abs_sub_le_iff]
  constructor
  · have := (Real.rpow_le_rpow ha hab h0).trans (Real.rpow_add_le_add_rpow hb ht h0 h1)
    linarith
  · have := (Real.rpow_le_rpow hb hba h0).trans (Real.rpow_add_le_add_rpow ha ht h0 h1)
    linarith

/-- A distance changes by at most the sum of the movements of the two points (to the power `α`). -/
theorem abs_dist_sub_le {α s t : ℝ} (h0 : 0 ≤ α) (h1 : α ≤ 1) {u u' v v' : Fin p → ℝ}
    (hu : Real.sqrt (∑ c, (u c - u' c) ^ 2) ≤ s) (hv : Real.sqrt (∑ c, (v c - v' c) ^ 2) ≤ t) :
    |dist α u' v' - dist α u v| ≤ (s + t) ^ α := by
  have hs : 0 ≤ s := (Real.sqrt_nonneg _).trans hu
  have ht : 0 ≤ t := (Real.sqrt_nonneg _).trans hv
  have sw : ∀ a b : Fin p → ℝ, Real.sqrt (∑ c, (a c - b c) ^ 2) = Real.sqrt (∑ c, (b c - a c) ^ 2) :=
    fun a b => congrArg _ (sum_congr rfl fun c _ => by ring)
  refine abs_rpow_sub_le h0 h1 (Real.sqrt_nonneg _) (Real.sqrt_nonneg _) (add_nonneg hs ht) ?_ ?_
  · have a1 := sqrt_triangle u' u v'
    have a2 := sqrt_triangle u v v'
    rw [sw u' u] at a1
    linarith
  · have a1 := sqrt_triangle u u' v
    have a2 := sqrt_triangle u' v' v
    rw [sw v' v] at a2
    linarith

/-! ### Centring does not increase the norm -/

theorem dcovSqr_self_le (c : RMat n) {t : ℝ} (h : ∀ i j, |c i j| ≤ t) :
    dcovSqr c c ≤ t ^ 2 := by
  have e : total (centre c) (centre c) = total (centre c) c := by
    rw [total_centre_left, centre_centre, total_comm]
  have h1 : 0 ≤ total (c - centre c) (c - centre c) :=
    sum_nonneg fun i _ => sum_nonneg fun j _ => mul_self_nonneg _
  have h2 : total (c - centre c) (c - centre c)
      = total c c - 2 * total (centre c) c + total (centre c) (centre c) := by
    unfold total
    rw [mul_sum, ← sum_sub_distrib, ← sum_add_distrib]
    refine sum_congr rfl fun i _ => ?_
    rw [mul_sum, ← sum_sub_distrib, ← sum_add_distrib]
    refine sum_congr rfl fun j _ => ?_
    simp only [Pi.sub_apply]
    ring
  have h3 : total c c ≤ n ^ 2 * t ^ 2 := by
    calc total c c ≤ ∑ _i : Fin n, ∑ _j : Fin n, t ^ 2 :=
          sum_le_sum fun i _ => sum_le_sum fun j _ => by
            rw [← sq, ← sq_abs]
            exact pow_le_pow_left₀ (abs_nonneg _) (h i j) 2
      _ = n ^ 2 * t ^ 2 := by
          simp only [sum_const, card_univ, Fintype.card_fin, nsmul_eq_mul]
          ring
  rcases Nat.eq_zero_or_pos n with rfl | hn
  · simp [dcovSqr]
    positivity
  have hn' : (0 : ℝ) < (n : ℝ) ^ 2 := by positivity
  have h4 : dcovSqr c c = total (centre c) (centre c) / n ^ 2 := rfl
  rw [h4, div_le_iff₀ hn']
  nlinarith

theorem dcovSqr_sub_left (a b c : RMat n) : dcovSqr (a - b) c = dcovSqr a c - dcovSqr b c := by
  unfold dcovSqr
  rw [centre_sub, ← sub_div, ← sum_sub_distrib]
  congr 1
  refine sum_congr rfl fun i _ => ?_
  rw [← sum_sub_distrib]
  exact sum_congr rfl fun j _ => by simp only [Pi.sub_apply]; ring

theorem dcovSqr_sub_right (a b c : RMat n) : dcovSqr c (a - b) = dcovSqr c a - dcovSqr c b := by
  rw [dcovSqr_comm, dcovSqr_sub_left, dcovSqr_comm a, dcovSqr_comm b]

theorem abs_dcovSqr_le (a b : RMat n) :
    |dcovSqr a b| ≤ Real.sqrt (dcovSqr a a) * Real.sqrt (dcovSqr b b) := by
  rw [← Real.sqrt_mul (dcovSqr_self_nonneg a)]
  exact Real.abs_le_sqrt (dcovSqr_cauchy a b)

/-- Changing the entries of a matrix by at most `t`. -/
theorem abs_dcovSqr_sub_le (a a' b : RMat n) {t : ℝ} (ht : 0 ≤ t) (h : ∀ i j, |a' i j - a i j| ≤ t) :
    |dcovSqr a' b - dcovSqr a b| ≤ t * Real.sqrt (dcovSqr b b) := by
  rw [← dcovSqr_sub_left]
  refine (abs_dcovSqr_le _ _).trans (mul_le_mul_of_nonneg_right ?_ (Real.sqrt_nonneg _))
  rw [Real.sqrt_le_left ht]
  exact dcovSqr_self_le _ h

/-- The square root of the distance variance is a seminorm. -/
theorem abs_sqrt_dvar_sub_le (a a' : RMat n) {t : ℝ} (ht : 0 ≤ t) (h : ∀ i j, |a' i j - a i j| ≤ t) :
    |Real.sqrt (dcovSqr a' a') - Real.sqrt (dcovSqr a a)| ≤ t := by
  have h1 : Real.sqrt (dcovSqr (a' - a) (a' - a)) ≤ t := by
    rw [Real.sqrt_le_left ht]
    exact dcovSqr_self_le _ h
  have h2 := abs_le.1 (abs_dcovSqr_le a' a)
  have e : dcovSqr (a' - a) (a' - a) = dcovSqr a' a' - 2 * dcovSqr a' a + dcovSqr a a := by
    rw [dcovSqr_sub_left, dcovSqr_sub_right, dcovSqr_sub_right, dcovSqr_comm a a']
    ring
  have s1 := Real.sq_sqrt (dcovSqr_self_nonneg a')
  have s2 := Real.sq_sqrt (dcovSqr_self_nonneg a)
  have s3 := Real.sq_sqrt (dcovSqr_self_nonneg (a' - a))
  refine abs_le_of_sq_le_sq ?_ ht
  have : Real.sqrt (dcovSqr (a' - a) (a' - a)) ^ 2 ≤ t ^ 2 :=
    pow_le_pow_left₀ (Real.sqrt_nonneg _) h1 2
  nlinarith

/-- U-centring does not increase the norm either. -/
theorem uDcovSqr_self_le (hn : 3 < n) (c : RMat n) (hc : Symm c) (h0 : ∀ i, c i i = 0) {t : ℝ}
    (h : ∀ i j, |c i j| ≤ t) : uDcovSqr c c ≤ (n - 1) / (n - 3) * t ^ 2 := by
  have hn3 : (3 : ℝ) < n := by exact_mod_cast hn
  have hr := sum_uCentre_row c hc h0 (by omega)
  have hcol := sum_uCentre_col c hc h0 (by omega)
  -- the U-centred matrix is orthogonal to what was subtracted
  have e : total (uCentre c) (uCentre c) = total (uCentre c) c := by
    have h1 : ∀ i j, uCentre c i j * uCentre c i j = uCentre c i j * c i j
        - uCentre c i j * ((∑ k, c i k) / (n - 2)) - uCentre c i j * ((∑ k, c k j) / (n - 2))
        + uCentre c i j * ((∑ k, ∑ l, c k l) / ((n - 1) * (n - 2))) := by
      intro i j
      by_cases hij : i = j
      · simp [uCentre, hij]
      · rw [← mul_sub, ← mul_sub, ← mul_add]
        congr 1
        simp [uCentre, hij]
    unfold total
    simp only [h1, sum_add_distrib, sum_sub_distrib]
    have z1 : ∑ i, ∑ j, uCentre c i j * ((∑ k, c i k) / ((n : ℝ) - 2)) = 0 :=
      sum_eq_zero fun i _ => by rw [← sum_mul, hr, zero_mul]
    have z2 : ∑ i, ∑ j, uCentre c i j * ((∑ k, c k j) / ((n : ℝ) - 2)) = 0 := by
      rw [sum_comm]
      exact sum_eq_zero fun i _ => by rw [← sum_mul, hcol, zero_mul]
    have z3 : ∑ i, ∑ j, uCentre c i j * ((∑ k, ∑ l, c k l) / (((n : ℝ) - 1) * (n - 2))) = 0 :=
      sum_eq_zero fun i _ => by rw [← sum_mul, hr, zero_mul]
    rw [z1, z2, z3]
    ring
  have h1 : 0 ≤ total (c - uCentre c) (c - uCentre c) :=
    sum_nonneg fun i _ => sum_nonneg fun j _ => mul_self_nonneg _
  have h2 : total (c - uCentre c) (c - uCentre c)
      = total c c - 2 * total (uCentre c) c + total (uCentre c) (uCentre c) := by
    unfold total
    rw [mul_sum, ← sum_sub_distrib, ← sum_add_distrib]
    refine sum_congr rfl fun i _ => ?_
    rw [mul_sum, ← sum_sub_distrib, ← sum_add_distrib]
    refine sum_congr rfl fun j _ => ?_
    simp only [Pi.sub_apply]
    ring
  have h3 : total c c ≤ n * (n - 1) * t ^ 2 := by
    calc total c c ≤ ∑ i : Fin n, ∑ j : Fin n, (t ^ 2 - if i = j then t ^ 2 else 0) :=
          sum_le_sum fun i _ => sum_le_sum fun j _ => by
            split_ifs with hij
            · rw [hij, h0]; simp
            · rw [← sq, ← sq_abs, sub_zero]
              exact pow_le_pow_left₀ (abs_nonneg _) (h i j) 2
      _ = n * (n - 1) * t ^ 2 := by
          simp only [sum_sub_distrib, sum_const, card_univ, Fintype.card_fin, nsmul_eq_mul, sum_ite_eq,
            mem_univ, if_true]
          ring
  rw [uDcovSqr_eq_uIp]
  have h4 : uIp (uCentre c) (uCentre c) = total (uCentre c) (uCentre c) / (n * (n - 3)) := rfl
  have hpos := uIp_denom_pos hn
  rw [h4, div_le_iff₀ hpos]
  have e5 : ((n : ℝ) - 1) / (n - 3) * t ^ 2 * (n * (n - 3)) = n * (n - 1) * t ^ 2 := by
    have : (n : ℝ) - 3 ≠ 0 := by linarith
    field_simp
  rw [e5]
  linarith

theorem uDcovSqr_sub_left (a b c : RMat n) : uDcovSqr (a - b) c = uDcovSqr a c - uDcovSqr b c := by
  have e : uCentre (a - b) = uCentre a - uCentre b := by
    funext i j
    simp only [uCentre, Pi.sub_apply, sum_sub_distrib]
    split_ifs
    · simp
    · ring
  rw [uDcovSqr_eq_uIp, e, uIp_sub_left, ← uDcovSqr_eq_uIp, ← uDcovSqr_eq_uIp]

/-- Changing the entries of a distance matrix by at most `t`. -/
theorem abs_uDcovSqr_sub_le (hn : 3 < n) (a a' b : RMat n) (ha : Symm a) (ha' : Symm a')
    (h0 : ∀ i, a i i = 0) (h0' : ∀ i, a' i i = 0) {t : ℝ} (ht : 0 ≤ t)
    (h : ∀ i j, |a' i j - a i j| ≤ t) :
    |uDcovSqr a' b - uDcovSqr a b| ≤ Real.sqrt ((n - 1) / (n - 3)) * t * Real.sqrt (uDcovSqr b b) := by
  have hn3 : (3 : ℝ) < n := by exact_mod_cast hn
  rw [← uDcovSqr_sub_left]
  have hcs : |uDcovSqr (a' - a) b| ≤ Real.sqrt (uDcovSqr (a' - a) (a' - a)) * Real.sqrt (uDcovSqr b b) := by
    rw [← Real.sqrt_mul (uDvar_nonneg hn _)]
    refine Real.abs_le_sqrt ?_
    simp only [uDcovSqr_eq_uIp]
    exact uIp_cauchy hn _ _
  refine hcs.trans (mul_le_mul_of_nonneg_right ?_ (Real.sqrt_nonneg _))
  have hq : (0 : ℝ) ≤ ((n : ℝ) - 1) / (n - 3) := div_nonneg (by linarith) (by linarith)
  rw [Real.sqrt_le_left (by positivity), mul_pow, Real.sq_sqrt hq]
  refine uDcovSqr_self_le hn _ (fun i j => ?_) (fun i => ?_) h
  · simp only [Pi.sub_apply, ha i j, ha' i j]
  · simp only [Pi.sub_apply, h0, h0', sub_self]

/-! ### Energy distance -/

/-- Weights of three pooled samples. -/
noncomputable def poolWeight3 (n m k : ℕ) (a b c : ℝ) : Fin (n + m + k) → ℝ :=
  Fin.append (Fin.append (fun _ : Fin n => a / n) (fun _ : Fin m => b / m)) (fun _ : Fin k => c / k)

theorem total_poolWeight3 (α a b c : ℝ) (X : Fin n → Fin p → ℝ) (Y : Fin m → Fin p → ℝ)
    (Z : Fin k → Fin p → ℝ) :
    total (fun i j => poolWeight3 n m k a b c i * poolWeight3 n m k a b c j)
      (distMat α (Fin.append (Fin.append X Y) Z))
      = a ^ 2 * crossMean α X X + b ^ 2 * crossMean α Y Y + c ^ 2 * crossMean α Z Z
        + 2 * (a * b * crossMean α X Y) + 2 * (a * c * crossMean α X Z)
        + 2 * (b * c * crossMean α Y Z) := by
  have e : ∀ {n₁ n₂ : ℕ} (s t : ℝ) (A : Fin n₁ → Fin p → ℝ) (B : Fin n₂ → Fin p → ℝ),
      ∑ i, ∑ j, s / n₁ * (t / n₂) * dist α (A i) (B j) = s * t * crossMean α A B := by
    intro n₁ n₂ s t A B
    simp only [← mul_sum]
    unfold crossMean
    ring
  unfold total poolWeight3 distMat
  simp only [Fin.sum_univ_add, Fin.append_left, Fin.append_right, sum_add_distrib, e]
  rw [crossMean_comm α Y X, crossMean_comm α Z X, crossMean_comm α Z Y]
  ring

theorem quadForm3_nonpos (hn : 0 < n) (hm : 0 < m) (hk : 0 < k) (X : Fin n → Fin p → ℝ)
    (Y : Fin m → Fin p → ℝ) (Z : Fin k → Fin p → ℝ) {α : ℝ} (hα : 0 < α) (hα2 : α ≤ 2) {a b c : ℝ}
    (h : a + b + c = 0) :
    a ^ 2 * crossMean α X X + b ^ 2 * crossMean α Y Y + c ^ 2 * crossMean α Z Z
        + 2 * (a * b * crossMean α X Y) + 2 * (a * c * crossMean α X Z)
        + 2 * (b * c * crossMean α Y Z) ≤ 0 := by
  rw [← total_poolWeight3]
  refine negType (isPSD_rank_one _) (sum_sum_rank_one _ ?_) _ hα hα2
  have hn' : (n : ℝ) ≠ 0 := by positivity
  have hm' : (m : ℝ) ≠ 0 := by positivity
  have hk' : (k : ℝ) ≠ 0 := by positivity
  simp only [poolWeight3, Fin.sum_univ_add, Fin.append_left, Fin.append_right, sum_const, card_univ,
    Fintype.card_fin, nsmul_eq_mul]
  field_simp
  exact h

/-- The square root of the energy distance satisfies the triangle inequality. -/
theorem sqrt_energyV_triangle (hn : 0 < n) (hm : 0 < m) (hk : 0 < k) (X : Fin n → Fin p → ℝ)
    (Y : Fin m → Fin p → ℝ) (Z : Fin k → Fin p → ℝ) {α : ℝ} (hα : 0 < α) (hα2 : α ≤ 2) :
    Real.sqrt (energyV α X Z) ≤ Real.sqrt (energyV α X Y) + Real.sqrt (energyV α Y Z) := by
  have n1 := energyV_nonneg hn hm X Y hα.le hα2
  have n2 := energyV_nonneg hm hk Y Z hα.le hα2
  set B := crossMean α X Z - crossMean α X Y - crossMean α Y Z + crossMean α Y Y with hB
  -- `E(X,Z) = E(X,Y) + E(Y,Z) + 2 B` and the quadratic form is nonnegative
  have hE : energyV α X Z = energyV α X Y + energyV α Y Z + 2 * B := by
    rw [hB]
    unfold energyV
    ring
  have hq : ∀ s t : ℝ, 0 ≤ s ^ 2 * energyV α X Y + 2 * (s * t) * B + t ^ 2 * energyV α Y Z := by
    intro s t
    have := quadForm3_nonpos hn hm hk X Y Z hα hα2 (a := s) (b := t - s) (c := -t) (by ring)
    rw [hB]
    unfold energyV
    nlinarith
  set S := Real.sqrt (energyV α X Y)
  set T := Real.sqrt (energyV α Y Z)
  have hS : S ^ 2 = energyV α X Y := Real.sq_sqrt n1
  have hT : T ^ 2 = energyV α Y Z := Real.sq_sqrt n2
  have hS0 : 0 ≤ S := Real.sqrt_nonneg _
  have hT0 : 0 ≤ T := Real.sqrt_nonneg _
  have hBle : B ≤ S * T := by
    rcases hS0.eq_or_lt with h | h
    · by_contra hc
      push Not at hc
      have hc' : 0 < B := by rw [← h, zero_mul] at hc; exact hc
      have := hq (-(T ^ 2 + 1) / (2 * B)) 1
      rw [← hS, ← h, ← hT] at this
      have e : 2 * (-(T ^ 2 + 1) / (2 * B) * 1) * B = -(T ^ 2 + 1) := by field_simp
      rw [e] at this
      linarith
    rcases hT0.eq_or_lt with h' | h'
    · by_contra hc
      push Not at hc
      have hc' : 0 < B := by rw [← h', mul_zero] at hc; exact hc
      have := hq 1 (-(S ^ 2 + 1) / (2 * B))
      rw [← hS, ← hT, ← h'] at this
      have e : 2 * (1 * (-(S ^ 2 + 1) / (2 * B))) * B = -(S ^ 2 + 1) := by field_simp
      rw [e] at this
      linarith
    · have := hq T (-S)
      rw [← hS, ← hT] at this
      have hp : 0 < S * T := mul_pos h h'
      nlinarith
  refine Real.sqrt_le_iff.2 ⟨add_nonneg hS0 hT0, ?_⟩
  rw [hE, ← hS, ← hT]
  nlinarith

theorem abs_crossMean_sub_le (hn : 0 < n) (hm : 0 < m) {α s t : ℝ} (h0 : 0 ≤ α) (h1 : α ≤ 1)
    {X X' : Fin n → Fin p → ℝ} {Y Y' : Fin m → Fin p → ℝ}
    (hX : ∀ i, Real.sqrt (∑ c, (X i c - X' i c) ^ 2) ≤ s)
    (hY : ∀ i, Real.sqrt (∑ c, (Y i c - Y' i c) ^ 2) ≤ t) :
    |crossMean α X' Y' - crossMean α X Y| ≤ (s + t) ^ α := by
  have hpos : (0 : ℝ) < n * m := by positivity
  unfold crossMean
  rw [← sub_div, abs_div, abs_of_pos hpos, div_le_iff₀ hpos, ← sum_sub_distrib]
  calc _ ≤ ∑ i, |∑ j, dist α (X' i) (Y' j) - ∑ j, dist α (X i) (Y j)| := abs_sum_le_sum_abs _ _
    _ ≤ ∑ _i : Fin n, ∑ _j : Fin m, (s + t) ^ α := sum_le_sum fun i _ => by
        rw [← sum_sub_distrib]
        exact (abs_sum_le_sum_abs _ _).trans (sum_le_sum fun j _ => abs_dist_sub_le h0 h1 (hX i) (hY j))
    _ = (s + t) ^ α * (n * m) := by
        simp only [sum_const, card_univ, Fintype.card_fin, nsmul_eq_mul]
        ring

end Dcor.Spec

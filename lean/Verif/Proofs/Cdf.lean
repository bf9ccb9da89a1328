/-
Distance covariance and energy distance of scalar samples as integrals of squared differences of distribution functions.
-/
import Mathlib.MeasureTheory.Integral.Prod
import Mathlib.MeasureTheory.Measure.Lebesgue.Basic
import Verif.Spec.Cdf
import Verif.Proofs.EnergySpec
import Verif.Proofs.FromTerms

namespace Dcor.Spec

open Finset MeasureTheory

/-- Distribution function of a single number. -/
noncomputable def step (x t : ℝ) : ℝ := if x ≤ t then 1 else 0

theorem step_sub_sq (x y : ℝ) :
    (fun t => (step x t - step y t) ^ 2) = Set.indicator (Set.Ico (min x y) (max x y)) fun _ => (1 : ℝ) := by
  funext t
  unfold step Set.indicator
  simp only [Set.mem_Ico, min_le_iff, lt_max_iff]
  by_cases h1 : x ≤ t <;> by_cases h2 : y ≤ t
  · rw [if_pos h1, if_pos h2, if_neg (by rintro ⟨-, h | h⟩ <;> linarith)]
    norm_num
  · rw [if_pos h1, if_neg h2, if_pos ⟨Or.inl h1, Or.inr (not_le.1 h2)⟩]
    norm_num
  · rw [if_neg h1, if_pos h2, if_pos ⟨Or.inr h2, Or.inl (not_le.1 h1)⟩]
    norm_num
  · rw [if_neg h1, if_neg h2, if_neg (by rintro ⟨h | h, -⟩ <;> contradiction)]
    norm_num

theorem integrable_step_sub_sq (x y : ℝ) : Integrable fun t => (step x t - step y t) ^ 2 := by
  rw [step_sub_sq, integrable_indicator_iff measurableSet_Ico]
  exact integrableOn_const (by simp)

theorem integral_step_sub_sq (x y : ℝ) : ∫ t, (step x t - step y t) ^ 2 = |x - y| := by
  rw [step_sub_sq, integral_indicator measurableSet_Ico]
  simp only [integral_const, MeasurableSet.univ, measureReal_restrict_apply, Set.univ_inter, smul_eq_mul, mul_one]
  rw [Real.volume_real_Ico_of_le min_le_max, max_sub_min_eq_abs', abs_sub_comm]

theorem step_mul_eq (x y a : ℝ) : (fun t => (step x t - step a t) * (step y t - step a t)) = fun t =>
    ((step x t - step a t) ^ 2 + (step y t - step a t) ^ 2 - (step x t - step y t) ^ 2) / 2 := by
  funext t
  ring

theorem integrable_step_mul (x y a : ℝ) : Integrable fun t => (step x t - step a t) * (step y t - step a t) := by
  rw [step_mul_eq]
  exact (((integrable_step_sub_sq _ _).add (integrable_step_sub_sq _ _)).sub (integrable_step_sub_sq _ _)).div_const 2

theorem integral_step_mul (x y a : ℝ) :
    ∫ t, (step x t - step a t) * (step y t - step a t) = (|x - a| + |y - a| - |x - y|) / 2 := by
  rw [step_mul_eq, integral_div, integral_sub (f := fun t => (step x t - step a t) ^ 2 + (step y t - step a t) ^ 2)
    ((integrable_step_sub_sq _ _).add (integrable_step_sub_sq _ _)) (integrable_step_sub_sq _ _),
    integral_add (integrable_step_sub_sq _ _) (integrable_step_sub_sq _ _)]
  simp only [integral_step_sub_sq]

variable {ι : Type} [Fintype ι]

/-- Combinations of distribution functions whose weights add up to zero. -/
theorem weighted_step (x w w' : ι → ℝ) (hw : ∑ i, w i = 0) (hw' : ∑ i, w' i = 0) :
    (fun t => (∑ i, w i * step (x i) t) * ∑ j, w' j * step (x j) t)
      = fun t => ∑ i, ∑ j, w i * w' j * ((step (x i) t - step 0 t) * (step (x j) t - step 0 t)) := by
  have e : ∀ (v : ι → ℝ), ∑ i, v i = 0 → ∀ t, ∑ i, v i * step (x i) t = ∑ i, v i * (step (x i) t - step 0 t) := by
    intro v hv t
    simp only [mul_sub, sum_sub_distrib, ← sum_mul, hv, zero_mul, sub_zero]
  funext t
  rw [e w hw t, e w' hw' t, sum_mul_sum]
  exact sum_congr rfl fun i _ => sum_congr rfl fun j _ => by ring

theorem integrable_weighted_step (x w w' : ι → ℝ) (hw : ∑ i, w i = 0) (hw' : ∑ i, w' i = 0) :
    Integrable fun t => (∑ i, w i * step (x i) t) * ∑ j, w' j * step (x j) t := by
  rw [weighted_step x w w' hw hw']
  exact integrable_finsetSum _ fun i _ => integrable_finsetSum _ fun j _ => (integrable_step_mul _ _ _).const_mul _

theorem integral_weighted_step (x w w' : ι → ℝ) (hw : ∑ i, w i = 0) (hw' : ∑ i, w' i = 0) :
    ∫ t, (∑ i, w i * step (x i) t) * ∑ j, w' j * step (x j) t = -(∑ i, ∑ j, w i * w' j * |x i - x j|) / 2 := by
  rw [weighted_step x w w' hw hw']
  rw [integral_finsetSum _ fun i _ => integrable_finsetSum _ fun j _ => (integrable_step_mul _ _ _).const_mul _]
  rw [sum_congr rfl fun i _ => integral_finsetSum _ fun j _ => (integrable_step_mul (x i) (x j) 0).const_mul _]
  simp only [integral_const_mul, integral_step_mul, sub_zero]
  have e : ∀ i j, w i * w' j * ((|x i| + |x j| - |x i - x j|) / 2)
      = (w i * |x i| * w' j + w i * (w' j * |x j|) - w i * w' j * |x i - x j|) / 2 := fun i j => by ring
  simp only [e, ← sum_div, sum_sub_distrib, sum_add_distrib, ← mul_sum, ← sum_mul, hw, hw']
  ring

/-! ### Energy distance -/

variable {n m : ℕ}

theorem ecdf_eq (x : Fin n → ℝ) (t : ℝ) : ecdf x t = (∑ i, step (x i) t) / n := by
  unfold ecdf step
  rw [sum_boole]

theorem energyV_eq_integral (hn : 0 < n) (hm : 0 < m) (x : Fin n → ℝ) (y : Fin m → ℝ) :
    Integrable (fun t => (ecdf x t - ecdf y t) ^ 2) ∧
      energyV 1 (fun i (_ : Fin 1) => x i) (fun i (_ : Fin 1) => y i) = 2 * ∫ t, (ecdf x t - ecdf y t) ^ 2 := by
  have hn' : (n : ℝ) ≠ 0 := by positivity
  have hm' : (m : ℝ) ≠ 0 := by positivity
  let z : Fin n ⊕ Fin m → ℝ := Sum.elim x y
  let w : Fin n ⊕ Fin m → ℝ := Sum.elim (fun _ => 1 / n) fun _ => -1 / m
  have hw : ∑ i, w i = 0 := by
    simp only [w, Fintype.sum_sum_type, Sum.elim_inl, Sum.elim_inr, sum_const, card_univ, Fintype.card_fin,
      nsmul_eq_mul]
    field_simp
    ring
  have e : (fun t => (ecdf x t - ecdf y t) ^ 2) = fun t => (∑ i, w i * step (z i) t) * ∑ j, w j * step (z j) t := by
    funext t
    have : ecdf x t - ecdf y t = ∑ i, w i * step (z i) t := by
      simp only [w, z, Fintype.sum_sum_type, Sum.elim_inl, Sum.elim_inr, ← mul_sum]
      rw [ecdf_eq, ecdf_eq]
      ring
    rw [this, sq]
  rw [e]
  refine ⟨integrable_weighted_step z w w hw hw, ?_⟩
  rw [integral_weighted_step z w w hw hw]
  simp only [w, z, Fintype.sum_sum_type, Sum.elim_inl, Sum.elim_inr, sum_add_distrib, mul_assoc, ← mul_sum]
  unfold energyV crossMean
  simp only [dist_one_scalar]
  have hs : ∑ i, ∑ j, |y i - x j| = ∑ i, ∑ j, |x i - y j| := by
    rw [sum_comm]
    exact sum_congr rfl fun i _ => sum_congr rfl fun j _ => abs_sub_comm _ _
  rw [hs]
  field_simp
  ring

/-! ### Distance covariance -/

/-- Weights of the difference between an observation and the mean. -/
noncomputable def devWeight (i k : Fin n) : ℝ := (if k = i then 1 else 0) - 1 / n

theorem sum_devWeight (hn : 0 < n) (i : Fin n) : ∑ k, devWeight i k = 0 := by
  have hn' : (n : ℝ) ≠ 0 := by positivity
  unfold devWeight
  rw [sum_sub_distrib, sum_ite_eq' univ i, if_pos (mem_univ _), sum_const, card_univ, Fintype.card_fin, nsmul_eq_mul]
  field_simp
  ring

theorem sum_devWeight_mul (i : Fin n) (f : Fin n → ℝ) : ∑ k, devWeight i k * f k = f i - (∑ k, f k) / n := by
  unfold devWeight
  simp only [sub_mul, sum_sub_distrib, ite_mul, one_mul, zero_mul, sum_ite_eq', mem_univ, if_true, ← mul_sum]
  ring

theorem centre_eq_devWeight (a : Fin n → Fin n → ℝ) (i j : Fin n) :
    centre a i j = ∑ k, ∑ l, devWeight i k * devWeight j l * a k l := by
  have : ∀ k, ∑ l, devWeight i k * devWeight j l * a k l = devWeight i k * (a k j - (∑ l, a k l) / n) := by
    intro k
    rw [← sum_devWeight_mul j (a k), mul_sum]
    exact sum_congr rfl fun l _ => mul_assoc _ _ _
  simp only [this]
  rw [sum_devWeight_mul, sum_sub_distrib, ← sum_div]
  unfold centre
  ring

/-- The difference between the distribution function of an observation and that of the sample. -/
noncomputable def stepDev (x : Fin n → ℝ) (i : Fin n) (t : ℝ) : ℝ := step (x i) t - ecdf x t

theorem stepDev_eq (x : Fin n → ℝ) (i : Fin n) (t : ℝ) : stepDev x i t = ∑ k, devWeight i k * step (x k) t := by
  rw [sum_devWeight_mul, stepDev, ecdf_eq]

theorem integrable_stepDev (hn : 0 < n) (x : Fin n → ℝ) (i j : Fin n) :
    Integrable fun t => stepDev x i t * stepDev x j t := by
  simp only [stepDev_eq]
  exact integrable_weighted_step x _ _ (sum_devWeight hn i) (sum_devWeight hn j)

theorem integral_stepDev (hn : 0 < n) (x : Fin n → ℝ) (i j : Fin n) :
    ∫ t, stepDev x i t * stepDev x j t = -centre (distMat 1 fun i (_ : Fin 1) => x i) i j / 2 := by
  simp only [stepDev_eq]
  rw [integral_weighted_step x _ _ (sum_devWeight hn i) (sum_devWeight hn j), centre_eq_devWeight]
  unfold distMat
  simp only [dist_one_scalar]

theorem jointCdf_sub (hn : 0 < n) (x y : Fin n → ℝ) (s t : ℝ) :
    jointCdf x y s t - ecdf x s * ecdf y t = (∑ i, stepDev x i s * stepDev y i t) / n := by
  have hn' : (n : ℝ) ≠ 0 := by positivity
  have h1 : jointCdf x y s t = (∑ i, step (x i) s * step (y i) t) / n := by
    unfold jointCdf step
    rw [← sum_boole]
    congr 1
    refine sum_congr rfl fun i _ => ?_
    by_cases h : x i ≤ s <;> by_cases h' : y i ≤ t <;> simp [h, h']
  have h2 : ∑ i, stepDev x i s * stepDev y i t = ∑ i, (step (x i) s * step (y i) t - ecdf y t * step (x i) s
      - ecdf x s * step (y i) t + ecdf x s * ecdf y t) := sum_congr rfl fun i _ => by unfold stepDev; ring
  rw [h2, h1, sum_add_distrib, sum_sub_distrib, sum_sub_distrib, ← mul_sum, ← mul_sum, sum_const, card_univ,
    Fintype.card_fin, nsmul_eq_mul]
  rw [show ∑ i, step (x i) s = n * ecdf x s by rw [ecdf_eq]; field_simp,
    show ∑ i, step (y i) t = n * ecdf y t by rw [ecdf_eq]; field_simp]
  field_simp
  ring

theorem dcovSqr_eq_integral (hn : 0 < n) (x y : Fin n → ℝ) :
    Integrable (fun z : ℝ × ℝ => (jointCdf x y z.1 z.2 - ecdf x z.1 * ecdf y z.2) ^ 2) ∧
      dcovSqr (distMat 1 fun i (_ : Fin 1) => x i) (distMat 1 fun i (_ : Fin 1) => y i)
        = 4 * ∫ z : ℝ × ℝ, (jointCdf x y z.1 z.2 - ecdf x z.1 * ecdf y z.2) ^ 2 := by
  have hn' : (n : ℝ) ≠ 0 := by positivity
  have e : (fun z : ℝ × ℝ => (jointCdf x y z.1 z.2 - ecdf x z.1 * ecdf y z.2) ^ 2)
      = fun z => (∑ i, ∑ j, (stepDev x i z.1 * stepDev x j z.1) * (stepDev y i z.2 * stepDev y j z.2)) / n ^ 2 := by
    funext z
    rw [jointCdf_sub hn, div_pow, sq (∑ i, _), sum_mul_sum]
    congr 1
    exact sum_congr rfl fun i _ => sum_congr rfl fun j _ => by ring
  have hint : ∀ i j, Integrable (fun z : ℝ × ℝ =>
      (stepDev x i z.1 * stepDev x j z.1) * (stepDev y i z.2 * stepDev y j z.2)) := fun i j =>
    (integrable_stepDev hn x i j).mul_prod (integrable_stepDev hn y i j)
  rw [e]
  refine ⟨(integrable_finsetSum _ fun i _ => integrable_finsetSum _ fun j _ => hint i j).div_const _, ?_⟩
  rw [integral_div, integral_finsetSum _ fun i _ => integrable_finsetSum _ fun j _ => hint i j]
  rw [sum_congr rfl fun i _ => integral_finsetSum _ fun j _ => hint i j]
  have : ∀ i j, ∫ z : ℝ × ℝ, (stepDev x i z.1 * stepDev x j z.1) * (stepDev y i z.2 * stepDev y j z.2)
      = centre (distMat 1 fun i (_ : Fin 1) => x i) i j * centre (distMat 1 fun i (_ : Fin 1) => y i) i j / 4 := by
    intro i j
    rw [show (volume : Measure (ℝ × ℝ)) = volume.prod volume from rfl,
      integral_prod_mul (fun s => stepDev x i s * stepDev x j s) fun t => stepDev y i t * stepDev y j t,
      integral_stepDev hn, integral_stepDev hn]
    ring
  simp only [this, ← sum_div]
  unfold dcovSqr
  ring

/-! ### Bounds -/

theorem ecdf_below {x : Fin n → ℝ} {a t : ℝ} (h : ∀ i, a ≤ x i) (ht : t < a) : ecdf x t = 0 := by
  rw [ecdf_eq, sum_eq_zero fun i _ => show step (x i) t = 0 from if_neg (by linarith [h i]), zero_div]

theorem ecdf_above (hn : 0 < n) {x : Fin n → ℝ} {b t : ℝ} (h : ∀ i, x i ≤ b) (ht : b ≤ t) : ecdf x t = 1 := by
  have hn' : (n : ℝ) ≠ 0 := by positivity
  rw [ecdf_eq, sum_congr rfl fun i _ => show step (x i) t = 1 from if_pos ((h i).trans ht), sum_const, card_univ, Fintype.card_fin, nsmul_eq_mul,
    mul_one, div_self hn']

theorem jointCdf_left_below {x y : Fin n → ℝ} {a s t : ℝ} (h : ∀ i, a ≤ x i) (hs : s < a) : jointCdf x y s t = 0 := by
  unfold jointCdf
  rw [filter_false_of_mem fun i _ hi => by linarith [h i, hi.1], card_empty, Nat.cast_zero, zero_div]

theorem jointCdf_left_above {x y : Fin n → ℝ} {b s t : ℝ} (h : ∀ i, x i ≤ b) (hs : b ≤ s) :
    jointCdf x y s t = ecdf y t := by
  unfold jointCdf ecdf
  rw [filter_congr fun i _ => and_iff_right ((h i).trans hs)]

theorem jointCdf_comm (x y : Fin n → ℝ) (s t : ℝ) : jointCdf x y s t = jointCdf y x t s := by
  unfold jointCdf
  rw [filter_congr fun i _ => and_comm]

theorem ecdf_nonneg (x : Fin n → ℝ) (t : ℝ) : 0 ≤ ecdf x t := by unfold ecdf; positivity

theorem ecdf_le_one (x : Fin n → ℝ) (t : ℝ) : ecdf x t ≤ 1 := by
  unfold ecdf
  refine div_le_one_of_le₀ ?_ (by positivity)
  exact_mod_cast (card_le_univ _).trans (le_of_eq (Fintype.card_fin n))

theorem jointCdf_nonneg (x y : Fin n → ℝ) (s t : ℝ) : 0 ≤ jointCdf x y s t := by unfold jointCdf; positivity

theorem jointCdf_le_left (x y : Fin n → ℝ) (s t : ℝ) : jointCdf x y s t ≤ ecdf x s := by
  unfold jointCdf ecdf
  gcongr
  intro h
  exact h.1

theorem jointCdf_le_right (x y : Fin n → ℝ) (s t : ℝ) : jointCdf x y s t ≤ ecdf y t := by
  rw [jointCdf_comm]
  exact jointCdf_le_left y x t s

theorem le_jointCdf (hn : 0 < n) (x y : Fin n → ℝ) (s t : ℝ) : ecdf x s + ecdf y t - 1 ≤ jointCdf x y s t := by
  have hn' : (0 : ℝ) < n := by positivity
  have h : ∀ i, step (x i) s + step (y i) t - 1 ≤ step (x i) s * step (y i) t := by
    intro i
    unfold step
    split_ifs <;> norm_num
  have h1 : jointCdf x y s t = (∑ i, step (x i) s * step (y i) t) / n := by
    unfold jointCdf step
    rw [← sum_boole]
    congr 1
    refine sum_congr rfl fun i _ => ?_
    by_cases h : x i ≤ s <;> by_cases h' : y i ≤ t <;> simp [h, h']
  have h2 := sum_le_sum fun i (_ : i ∈ (univ : Finset (Fin n))) => h i
  rw [sum_sub_distrib, sum_add_distrib, sum_const, card_univ, Fintype.card_fin, nsmul_eq_mul, mul_one] at h2
  rw [h1, ecdf_eq, ecdf_eq, ← add_div, div_sub_one hn'.ne']
  exact div_le_div_of_nonneg_right h2 hn'.le

/-- Joint and product distribution functions differ by at most a quarter. -/
theorem abs_jointCdf_sub_le (hn : 0 < n) (x y : Fin n → ℝ) (s t : ℝ) :
    |jointCdf x y s t - ecdf x s * ecdf y t| ≤ 1 / 4 := by
  have a0 := ecdf_nonneg x s
  have a1 := ecdf_le_one x s
  have b0 := ecdf_nonneg y t
  have b1 := ecdf_le_one y t
  have h0 := jointCdf_nonneg x y s t
  have h1 := jointCdf_le_left x y s t
  have h2 := jointCdf_le_right x y s t
  have h3 := le_jointCdf hn x y s t
  rw [abs_le]
  constructor
  · rcases le_total (ecdf x s + ecdf y t) 1 with h | h
    · nlinarith [sq_nonneg (ecdf x s - ecdf y t)]
    · nlinarith [sq_nonneg (ecdf x s - ecdf y t)]
  · rcases le_total (ecdf x s) (ecdf y t) with h | h
    · nlinarith [sq_nonneg (ecdf x s - 1 / 2), mul_le_mul_of_nonneg_left h a0]
    · nlinarith [sq_nonneg (ecdf y t - 1 / 2), mul_le_mul_of_nonneg_left h b0]

theorem energyV_le_cdf (hn : 0 < n) (hm : 0 < m) {x : Fin n → ℝ} {y : Fin m → ℝ} {a b D : ℝ}
    (hx : ∀ i, a ≤ x i ∧ x i ≤ b) (hy : ∀ i, a ≤ y i ∧ y i ≤ b) (hD : ∀ t, |ecdf x t - ecdf y t| ≤ D) :
    energyV 1 (fun i (_ : Fin 1) => x i) (fun i (_ : Fin 1) => y i) ≤ 2 * D ^ 2 * (b - a) := by
  have hab : a ≤ b := (hx ⟨0, hn⟩).1.trans (hx ⟨0, hn⟩).2
  obtain ⟨hi, e⟩ := energyV_eq_integral hn hm x y
  rw [e]
  have key : ∫ t, (ecdf x t - ecdf y t) ^ 2 ≤ ∫ t, Set.indicator (Set.Icc a b) (fun _ => D ^ 2) t := by
    refine integral_mono hi ((integrable_indicator_iff measurableSet_Icc).2 (integrableOn_const (by simp))) fun t => ?_
    by_cases ht : t ∈ Set.Icc a b
    · rw [Set.indicator_of_mem ht]
      exact sq_le_sq.2 ((hD t).trans (le_abs_self _))
    · rw [Set.indicator_of_notMem ht]
      simp only [Set.mem_Icc, not_and_or, not_le] at ht
      rcases ht with ht | ht
      · rw [ecdf_below (fun i => (hx i).1) ht, ecdf_below (fun i => (hy i).1) ht]
        norm_num
      · rw [ecdf_above hn (fun i => (hx i).2) ht.le, ecdf_above hm (fun i => (hy i).2) ht.le]
        norm_num
  rw [integral_indicator measurableSet_Icc] at key
  simp only [integral_const, MeasurableSet.univ, measureReal_restrict_apply, Set.univ_inter, smul_eq_mul] at key
  rw [Real.volume_real_Icc_of_le hab] at key
  linarith

theorem dcovSqr_le_cdf (hn : 0 < n) {x y : Fin n → ℝ} {a b c d D : ℝ} (hx : ∀ i, a ≤ x i ∧ x i ≤ b)
    (hy : ∀ i, c ≤ y i ∧ y i ≤ d) (hD : ∀ s t, |jointCdf x y s t - ecdf x s * ecdf y t| ≤ D) :
    dcovSqr (distMat 1 fun i (_ : Fin 1) => x i) (distMat 1 fun i (_ : Fin 1) => y i)
      ≤ 4 * D ^ 2 * ((b - a) * (d - c)) := by
  have hab : a ≤ b := (hx ⟨0, hn⟩).1.trans (hx ⟨0, hn⟩).2
  have hcd : c ≤ d := (hy ⟨0, hn⟩).1.trans (hy ⟨0, hn⟩).2
  obtain ⟨hi, e⟩ := dcovSqr_eq_integral hn x y
  have hm : MeasurableSet (Set.Icc a b ×ˢ Set.Icc c d) := measurableSet_Icc.prod measurableSet_Icc
  have hv : volume.real (Set.Icc a b ×ˢ Set.Icc c d) = (b - a) * (d - c) := by
    rw [show (volume : Measure (ℝ × ℝ)) = volume.prod volume from rfl, measureReal_prod_prod,
      Real.volume_real_Icc_of_le hab, Real.volume_real_Icc_of_le hcd]
  rw [e]
  have key : ∫ z : ℝ × ℝ, (jointCdf x y z.1 z.2 - ecdf x z.1 * ecdf y z.2) ^ 2
      ≤ ∫ z, Set.indicator (Set.Icc a b ×ˢ Set.Icc c d) (fun _ => D ^ 2) z := by
    refine integral_mono hi ((integrable_indicator_iff hm).2 (integrableOn_const (by
      rw [show (volume : Measure (ℝ × ℝ)) = volume.prod volume from rfl, Measure.prod_prod]
      exact (ENNReal.mul_lt_top (by simp) (by simp)).ne))) fun z => ?_
    by_cases hz : z ∈ Set.Icc a b ×ˢ Set.Icc c d
    · rw [Set.indicator_of_mem hz]
      exact sq_le_sq.2 ((hD z.1 z.2).trans (le_abs_self _))
    · rw [Set.indicator_of_notMem hz]
      have h0 : jointCdf x y z.1 z.2 - ecdf x z.1 * ecdf y z.2 = 0 := by
        simp only [Set.mem_prod, Set.mem_Icc, not_and_or, not_le] at hz
        rcases hz with (h | h) | h | h
        · rw [jointCdf_left_below (fun i => (hx i).1) h, ecdf_below (fun i => (hx i).1) h]
          ring
        · rw [jointCdf_left_above (fun i => (hx i).2) h.le, ecdf_above hn (fun i => (hx i).2) h.le]
          ring
        · rw [jointCdf_comm, jointCdf_left_below (fun i => (hy i).1) h, ecdf_below (fun i => (hy i).1) h]
          ring
        · rw [jointCdf_comm, jointCdf_left_above (fun i => (hy i).2) h.le, ecdf_above hn (fun i => (hy i).2) h.le]
          ring
      simp only [h0]
      norm_num
  rw [integral_indicator hm] at key
  simp only [integral_const, MeasurableSet.univ, measureReal_restrict_apply, Set.univ_inter, smul_eq_mul, hv] at key
  linarith

end Dcor.Spec

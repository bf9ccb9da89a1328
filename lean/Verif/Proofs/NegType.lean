/-
Euclidean distances raised to a power in `(0, 2]` are of negative type, and strictly so for powers
in `(0, 2)`.

The route: powers of inner products are positive kernels (induction), hence so is
`exp (2t⟨x, y⟩)` (power series) and the Gaussian `exp (-t‖x-y‖²)`; and `s^β` is a positive
combination of the functions `1 - exp (-ts)`.
-/
import Verif.Spec.Dcov
import Verif.Proofs.Projection
import Mathlib.Analysis.SpecialFunctions.Exponential
import Mathlib.Analysis.SpecialFunctions.Integrability.Basic
import Mathlib.Analysis.SpecialFunctions.ImproperIntegrals
import Mathlib.MeasureTheory.Integral.IntegralEqImproper
import Mathlib.MeasureTheory.Integral.Bochner.Set

namespace Dcor.Spec

open MeasureTheory
open Finset hiding Ioi Ioc Iio Ioo Ioc_subset_Ioi_self Ioi_subset_Ioi
open Set (Ioi Ioc Iio Ioo Ioc_subset_Ioi_self Ioi_subset_Ioi)

variable {n p : ℕ}

/-- Non-negative quadratic form (no symmetry required). -/
def IsPSD (M : RMat n) : Prop := ∀ d : Fin n → ℝ, 0 ≤ ∑ i, ∑ j, d i * d j * M i j

/-- Sum of all entries of the entrywise product. -/
def total (M K : RMat n) : ℝ := ∑ i, ∑ j, M i j * K i j

def ip (u v : Fin p → ℝ) : ℝ := ∑ c, u c * v c

def sqDist (u v : Fin p → ℝ) : ℝ := ∑ c, (u c - v c) ^ 2

theorem sqDist_nonneg (u v : Fin p → ℝ) : 0 ≤ sqDist u v := sum_nonneg fun _ _ => sq_nonneg _

theorem sqDist_eq (u v : Fin p → ℝ) : sqDist u v = ip u u + ip v v - 2 * ip u v := by
  simp only [sqDist, ip, mul_sum, ← sum_add_distrib, ← sum_sub_distrib]
  exact sum_congr rfl fun c _ => by ring

theorem sqDist_eq_zero (u v : Fin p → ℝ) : sqDist u v = 0 ↔ u = v := by
  unfold sqDist
  rw [sum_eq_zero_iff_of_nonneg (fun _ _ => sq_nonneg _)]
  constructor
  · intro h
    funext c
    have := h c (mem_univ c)
    exact sub_eq_zero.mp (pow_eq_zero_iff two_ne_zero |>.mp this)
  · rintro rfl c _
    simp

theorem IsPSD.mul_ip {M : RMat n} (hM : IsPSD M) (X : Fin n → Fin p → ℝ) :
    IsPSD fun i j => M i j * ip (X i) (X j) := by
  intro d
  have : ∑ i, ∑ j, d i * d j * (M i j * ip (X i) (X j))
      = ∑ c, ∑ i, ∑ j, (d i * X i c) * (d j * X j c) * M i j := by
    simp only [ip, mul_sum]
    rw [sum_comm' (t' := univ) (s' := fun _ => univ) (by simp)]
    rw [sum_comm]
    refine Eq.trans ?_ sum_comm
    refine sum_congr rfl fun i _ => ?_
    rw [sum_comm]
    refine sum_congr rfl fun j _ => sum_congr rfl fun c _ => by ring
  rw [this]
  exact sum_nonneg fun c _ => hM fun i => d i * X i c

theorem IsPSD.mul_ip_pow {M : RMat n} (hM : IsPSD M) (X : Fin n → Fin p → ℝ) (k : ℕ) :
    IsPSD fun i j => M i j * ip (X i) (X j) ^ k := by
  induction k with
  | zero => simpa using hM
  | succ k ih =>
    have := ih.mul_ip X
    simpa only [pow_succ, mul_assoc] using this

theorem IsPSD.mul_exp {M : RMat n} (hM : IsPSD M) (X : Fin n → Fin p → ℝ) {t : ℝ} (ht : 0 ≤ t) :
    IsPSD fun i j => M i j * Real.exp (t * ip (X i) (X j)) := by
  intro d
  have hs : ∀ i j, HasSum (fun k : ℕ => d i * d j * (M i j * ((t * ip (X i) (X j)) ^ k / k.factorial)))
      (d i * d j * (M i j * Real.exp (t * ip (X i) (X j)))) := by
    intro i j
    have := NormedSpace.expSeries_div_hasSum_exp (t * ip (X i) (X j))
    rw [← Real.exp_eq_exp_ℝ] at this
    exact (this.mul_left _).mul_left _
  have hsum := hasSum_sum fun i (_ : i ∈ univ) => hasSum_sum fun j (_ : j ∈ univ) => hs i j
  refine hsum.nonneg fun k => ?_
  have := hM.mul_ip_pow X k d
  have e : ∑ i, ∑ j, d i * d j * (M i j * ((t * ip (X i) (X j)) ^ k / k.factorial))
      = t ^ k / k.factorial * ∑ i, ∑ j, d i * d j * (M i j * ip (X i) (X j) ^ k) := by
    simp only [mul_sum]
    exact sum_congr rfl fun i _ => sum_congr rfl fun j _ => by rw [mul_pow]; ring
  rw [e]
  positivity

theorem IsPSD.total_gauss_nonneg {M : RMat n} (hM : IsPSD M) (X : Fin n → Fin p → ℝ) {t : ℝ}
    (ht : 0 ≤ t) : 0 ≤ total M fun i j => Real.exp (-(t * sqDist (X i) (X j))) := by
  have h := hM.mul_exp X (t := 2 * t) (by positivity) fun i => Real.exp (-(t * ip (X i) (X i)))
  refine h.trans_eq ?_
  refine sum_congr rfl fun i _ => sum_congr rfl fun j _ => ?_
  rw [← Real.exp_add, mul_left_comm, ← Real.exp_add]
  dsimp only
  rw [sqDist_eq]
  congr 2
  ring

/-! ### The integral representation of powers -/

/-- The integrand `(1 - e^{-ts}) t^{-β-1}`. -/
noncomputable def kern (β s t : ℝ) : ℝ := (1 - Real.exp (-(t * s))) * t ^ (-β - 1)

theorem kern_nonneg {β s t : ℝ} (hs : 0 ≤ s) (ht : 0 ≤ t) : 0 ≤ kern β s t := by
  refine mul_nonneg ?_ (Real.rpow_nonneg ht _)
  rw [sub_nonneg]
  exact Real.exp_le_one_iff.mpr (by nlinarith [mul_nonneg ht hs])

theorem kern_continuousOn (β s : ℝ) : ContinuousOn (kern β s) (Ioi 0) := by
  unfold kern
  refine ContinuousOn.mul (by fun_prop) ?_
  exact ContinuousOn.rpow_const continuousOn_id fun t ht => Or.inl (ne_of_gt ht)

theorem kern_integrable {β : ℝ} (h0 : 0 < β) (h1 : β < 1) {s : ℝ} (hs : 0 ≤ s) :
    IntegrableOn (kern β s) (Ioi 0) := by
  have hcov : Ioi (0 : ℝ) = Ioc 0 1 ∪ Ioi 1 := (Set.Ioc_union_Ioi_eq_Ioi zero_le_one).symm
  rw [hcov]
  refine IntegrableOn.union ?_ ?_
  · have hb : IntegrableOn (fun t : ℝ => s * t ^ (-β)) (Ioc 0 1) := by
      have := intervalIntegral.intervalIntegrable_rpow' (a := 0) (b := 1) (r := -β) (by linarith)
      rw [intervalIntegrable_iff_integrableOn_Ioc_of_le zero_le_one] at this
      exact this.const_mul s
    refine hb.mono' ?_ ?_
    · exact ((kern_continuousOn β s).mono Ioc_subset_Ioi_self).aestronglyMeasurable
        measurableSet_Ioc
    · refine (ae_restrict_iff' measurableSet_Ioc).mpr (Filter.Eventually.of_forall fun t ht => ?_)
      rw [Real.norm_of_nonneg (kern_nonneg hs ht.1.le)]
      unfold kern
      have h2 : 1 - Real.exp (-(t * s)) ≤ t * s := by
        have := Real.one_sub_le_exp_neg (t * s)
        linarith
      have h3 : t ^ (-β - 1) = t ^ (-β) / t := by rw [Real.rpow_sub_one ht.1.ne']
      have h4 : 0 ≤ t ^ (-β - 1) := Real.rpow_nonneg ht.1.le _
      calc (1 - Real.exp (-(t * s))) * t ^ (-β - 1) ≤ t * s * t ^ (-β - 1) :=
            mul_le_mul_of_nonneg_right h2 h4
        _ = s * t ^ (-β) := by rw [h3]; field_simp [ht.1.ne']
  · have hb := integrableOn_Ioi_rpow_of_lt (a := -β - 1) (by linarith) zero_lt_one
    refine hb.mono' ?_ ?_
    · exact ((kern_continuousOn β s).mono (Ioi_subset_Ioi zero_le_one)).aestronglyMeasurable
        measurableSet_Ioi
    · refine (ae_restrict_iff' measurableSet_Ioi).mpr (Filter.Eventually.of_forall fun t ht => ?_)
      have ht0 : (0 : ℝ) < t := lt_trans zero_lt_one ht
      rw [Real.norm_of_nonneg (kern_nonneg hs ht0.le)]
      unfold kern
      have h4 : 0 ≤ t ^ (-β - 1) := Real.rpow_nonneg ht0.le _
      have h5 := Real.exp_pos (-(t * s))
      nlinarith

/-- Normalising constant. -/
noncomputable def kConst (β : ℝ) : ℝ := ∫ t in Ioi 0, kern β 1 t

theorem kConst_pos {β : ℝ} (h0 : 0 < β) (h1 : β < 1) : 0 < kConst β := by
  unfold kConst
  rw [setIntegral_pos_iff_support_of_nonneg_ae]
  · have : Function.support (kern β 1) ∩ Ioi 0 = Ioi 0 := by
      rw [Set.inter_eq_right]
      intro t ht
      have ht0 : (0 : ℝ) < t := ht
      rw [Function.mem_support]
      unfold kern
      refine mul_ne_zero ?_ (Real.rpow_pos_of_pos ht0 _).ne'
      have : Real.exp (-(t * 1)) < 1 := by
        refine lt_of_lt_of_eq (Real.exp_strictMono (show -(t * 1) < 0 by linarith)) Real.exp_zero
      linarith
    rw [this]
    simp
  · exact (ae_restrict_iff' measurableSet_Ioi).mpr
      (Filter.Eventually.of_forall fun t ht => kern_nonneg zero_le_one (le_of_lt ht))
  · exact kern_integrable h0 h1 zero_le_one

theorem integral_kern {β : ℝ} (h0 : 0 < β) {s : ℝ} (hs : 0 ≤ s) :
    ∫ t in Ioi 0, kern β s t = kConst β * s ^ β := by
  rcases hs.eq_or_lt with rfl | hs
  · simp [kern, Real.zero_rpow h0.ne']
  · have h := integral_comp_mul_left_Ioi (kern β 1) 0 hs
    rw [mul_zero, smul_eq_mul] at h
    have h2 : ∫ t in Ioi 0, kern β s t = ∫ t in Ioi 0, s ^ (β + 1) * kern β 1 (s * t) := by
      refine setIntegral_congr_fun measurableSet_Ioi fun t ht => ?_
      have ht0 : (0 : ℝ) < t := ht
      simp only [kern]
      rw [Real.mul_rpow hs.le ht0.le, mul_left_comm, ← mul_assoc (s ^ (β + 1)),
        ← Real.rpow_add hs, mul_one, mul_comm s t]
      have : β + 1 + (-β - 1) = 0 := by ring
      rw [this, Real.rpow_zero, one_mul]
    rw [h2, integral_const_mul, h, ← kConst, Real.rpow_add_one hs.ne']
    field_simp

theorem dist_eq_sqDist_rpow (α : ℝ) (u v : Fin p → ℝ) : dist α u v = sqDist u v ^ (α / 2) := by
  rw [dist, ← sqDist, Real.sqrt_eq_rpow, ← Real.rpow_mul (sqDist_nonneg u v)]
  congr 1
  ring

/-- The integrand of the quadratic form. -/
theorem total_kern {M : RMat n} (h0 : ∑ i, ∑ j, M i j = 0) (X : Fin n → Fin p → ℝ) (β t : ℝ) :
    ∑ i, ∑ j, M i j * kern β (sqDist (X i) (X j)) t
      = -((total M fun i j => Real.exp (-(t * sqDist (X i) (X j)))) * t ^ (-β - 1)) := by
  unfold total kern
  have : ∑ i, ∑ j, M i j * ((1 - Real.exp (-(t * sqDist (X i) (X j)))) * t ^ (-β - 1))
      = (∑ i, ∑ j, M i j) * t ^ (-β - 1)
        - (∑ i, ∑ j, M i j * Real.exp (-(t * sqDist (X i) (X j)))) * t ^ (-β - 1) := by
    simp only [sum_mul, ← sum_sub_distrib]
    exact sum_congr rfl fun i _ => sum_congr rfl fun j _ => by ring
  rw [this, h0]
  ring

theorem total_integrable (M : RMat n) (X : Fin n → Fin p → ℝ) {β : ℝ} (hβ : 0 < β) (hβ1 : β < 1) :
    IntegrableOn (fun t => ∑ i, ∑ j, M i j * kern β (sqDist (X i) (X j)) t) (Ioi 0) := by
  refine integrable_finsetSum _ fun i _ => integrable_finsetSum _ fun j _ => ?_
  exact (kern_integrable hβ hβ1 (sqDist_nonneg _ _)).const_mul _

theorem kConst_mul_total (M : RMat n) (X : Fin n → Fin p → ℝ) {α : ℝ} (hα : 0 < α)
    (hα2 : α < 2) :
    kConst (α / 2) * total M (distMat α X)
      = ∫ t in Ioi 0, ∑ i, ∑ j, M i j * kern (α / 2) (sqDist (X i) (X j)) t := by
  have hβ : 0 < α / 2 := by linarith
  have hβ1 : α / 2 < 1 := by linarith
  rw [integral_finsetSum]
  · unfold total
    rw [mul_sum]
    refine sum_congr rfl fun i _ => ?_
    rw [integral_finsetSum]
    · rw [mul_sum]
      refine sum_congr rfl fun j _ => ?_
      rw [integral_const_mul, integral_kern hβ (sqDist_nonneg _ _), distMat, dist_eq_sqDist_rpow]
      ring
    · intro j _
      exact (kern_integrable hβ hβ1 (sqDist_nonneg _ _)).const_mul _
  · intro i _
    refine integrable_finsetSum _ fun j _ => ?_
    exact (kern_integrable hβ hβ1 (sqDist_nonneg _ _)).const_mul _

theorem negType_lt {M : RMat n} (hM : IsPSD M) (h0 : ∑ i, ∑ j, M i j = 0)
    (X : Fin n → Fin p → ℝ) {α : ℝ} (hα : 0 < α) (hα2 : α < 2) :
    total M (distMat α X) ≤ 0 := by
  have hk := kConst_pos (β := α / 2) (by linarith) (by linarith)
  have h := kConst_mul_total M X hα hα2
  have hle : ∫ t in Ioi 0, ∑ i, ∑ j, M i j * kern (α / 2) (sqDist (X i) (X j)) t ≤ 0 := by
    refine setIntegral_nonpos measurableSet_Ioi fun t ht => ?_
    have ht0 : (0 : ℝ) < t := ht
    rw [total_kern h0, neg_nonpos]
    exact mul_nonneg (hM.total_gauss_nonneg X ht0.le) (Real.rpow_nonneg ht0.le _)
  rw [← h] at hle
  exact nonpos_of_mul_nonpos_right hle hk

/-- Euclidean distances to a power in `(0, 2]` are of negative type. -/
theorem negType {M : RMat n} (hM : IsPSD M) (h0 : ∑ i, ∑ j, M i j = 0)
    (X : Fin n → Fin p → ℝ) {α : ℝ} (hα : 0 < α) (hα2 : α ≤ 2) :
    total M (distMat α X) ≤ 0 := by
  rcases hα2.lt_or_eq with h | rfl
  · exact negType_lt hM h0 X hα h
  · have hc : Filter.Tendsto (fun a : ℝ => total M (distMat a X)) (nhdsWithin 2 (Iio 2))
        (nhds (total M (distMat 2 X))) := by
      refine tendsto_finsetSum _ fun i _ => tendsto_finsetSum _ fun j _ => ?_
      refine Filter.Tendsto.const_mul _ ?_
      have : ContinuousAt (fun a : ℝ => dist a (X i) (X j)) 2 := by
        unfold dist
        exact Real.continuousAt_const_rpow' (by norm_num)
      exact this.tendsto.mono_left nhdsWithin_le_nhds
    refine le_of_tendsto hc ?_
    have : Ioo (0 : ℝ) 2 ∈ nhdsWithin 2 (Iio 2) := Ioo_mem_nhdsLT (by norm_num)
    filter_upwards [this] with a ha
    exact negType_lt hM h0 X ha.1 ha.2

/-- Strictness: if the form vanishes, so does the form of the equality kernel. -/
theorem negType_strict {M : RMat n} (hM : IsPSD M) (h0 : ∑ i, ∑ j, M i j = 0)
    (X : Fin n → Fin p → ℝ) {α : ℝ} (hα : 0 < α) (hα2 : α < 2)
    (hz : total M (distMat α X) = 0) :
    total M (fun i j => if X i = X j then 1 else 0) = 0 := by
  have h := kConst_mul_total M X hα hα2
  rw [hz, mul_zero] at h
  have hae := (setIntegral_eq_zero_iff_of_nonneg_ae (μ := volume) (s := Ioi (0 : ℝ))
    (f := fun t => -∑ i, ∑ j, M i j * kern (α / 2) (sqDist (X i) (X j)) t) ?_
    (total_integrable M X (by linarith) (by linarith)).neg).mp (by rw [integral_neg, ← h, neg_zero])
  · -- the Gaussian forms vanish for almost every `t > 0`
    have hG : ∀ᵐ t ∂(volume.restrict (Ioi (0 : ℝ))),
        (total M fun i j => Real.exp (-(t * sqDist (X i) (X j)))) = 0 := by
      filter_upwards [hae, ae_restrict_mem measurableSet_Ioi] with t h1 h2
      have ht0 : (0 : ℝ) < t := h2
      rw [Pi.zero_apply, total_kern h0, neg_neg] at h1
      exact (mul_eq_zero.mp h1).resolve_right (Real.rpow_pos_of_pos ht0 _).ne'
    -- hence along a sequence tending to infinity
    have hseq : ∀ k : ℕ, ∃ t : ℝ, (k : ℝ) < t ∧
        (total M fun i j => Real.exp (-(t * sqDist (X i) (X j)))) = 0 := by
      intro k
      by_contra hne
      push Not at hne
      rw [ae_iff, Measure.restrict_apply'] at hG
      · have hsub : Ioi (k : ℝ) ⊆ {t | ¬ (total M fun i j =>
            Real.exp (-(t * sqDist (X i) (X j)))) = 0} ∩ Ioi 0 := by
          intro t ht
          have ht' : (k : ℝ) < t := ht
          exact ⟨hne t ht', lt_of_le_of_lt (Nat.cast_nonneg k) ht'⟩
        have := measure_mono_null hsub hG
        simp at this
      · exact measurableSet_Ioi
    choose t ht htz using hseq
    have htt : Filter.Tendsto t Filter.atTop Filter.atTop :=
      Filter.tendsto_atTop_mono (fun k => (ht k).le) tendsto_natCast_atTop_atTop
    have hlim : Filter.Tendsto
        (fun k => total M fun i j => Real.exp (-(t k * sqDist (X i) (X j)))) Filter.atTop
        (nhds (total M fun i j => if X i = X j then 1 else 0)) := by
      refine tendsto_finsetSum _ fun i _ => tendsto_finsetSum _ fun j _ => ?_
      refine Filter.Tendsto.const_mul _ ?_
      by_cases hx : X i = X j
      · simp [hx, (sqDist_eq_zero (X j) (X j)).mpr rfl]
      · simp only [if_neg hx]
        have hpos : 0 < sqDist (X i) (X j) :=
          lt_of_le_of_ne (sqDist_nonneg _ _) fun e => hx ((sqDist_eq_zero _ _).mp e.symm)
        exact Real.tendsto_exp_neg_atTop_nhds_zero.comp (htt.atTop_mul_const hpos)
    simp only [htz] at hlim
    exact (tendsto_nhds_unique hlim tendsto_const_nhds).symm ▸ rfl
  · filter_upwards [ae_restrict_mem measurableSet_Ioi] with t ht
    have ht0 : (0 : ℝ) < t := ht
    simp only [Pi.zero_apply]
    rw [total_kern h0, neg_neg]
    exact mul_nonneg (hM.total_gauss_nonneg X ht0.le) (Real.rpow_nonneg ht0.le _)

end Dcor.Spec

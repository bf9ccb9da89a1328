/-
Gaussian kernels as averages of characters.
-/
import Mathlib.MeasureTheory.Integral.Pi
import Verif.Proofs.Charac

namespace Dcor

open MeasureTheory ProbabilityTheory Filter Topology Finset

namespace Charac

variable {p q : ℕ}

/-- The standard normal distribution. -/
noncomputable def gauss (p : ℕ) : Measure (Fin p → ℝ) := Measure.pi fun _ => gaussianReal 0 1

instance : IsProbabilityMeasure (gauss p) := by
  unfold gauss
  infer_instance

instance : (gaussianReal 0 1).IsOpenPosMeasure :=
  (gaussianReal_absolutelyContinuous' 0 (one_ne_zero : (1 : NNReal) ≠ 0)).isOpenPosMeasure

instance : (gauss p).IsOpenPosMeasure := by
  unfold gauss
  infer_instance

theorem integral_gauss (x : Fin p → ℝ) :
    ∫ ζ, Complex.exp (Complex.I * (Spec.ip ζ x : ℝ)) ∂(gauss p) = (Real.exp (-(Spec.ip x x) / 2) : ℝ) := by
  have h : ∀ ζ : Fin p → ℝ, Complex.exp (Complex.I * (Spec.ip ζ x : ℝ))
      = ∏ c, Complex.exp (x c * ζ c * Complex.I) := by
    intro ζ
    rw [← Complex.exp_sum]
    congr 1
    rw [Spec.ip]
    push_cast
    rw [mul_sum]
    exact sum_congr rfl fun c _ => by ring
  rw [integral_congr_ae (Eventually.of_forall h), gauss,
    integral_fintype_prod_eq_prod (fun c (t : ℝ) => Complex.exp (x c * t * Complex.I))]
  have h2 : ∀ c, ∫ t : ℝ, Complex.exp (x c * t * Complex.I) ∂(gaussianReal 0 1)
      = Complex.exp (-((x c * x c : ℝ) : ℂ) / 2) := by
    intro c
    rw [← charFun_apply_real, charFun_gaussianReal]
    congr 1
    push_cast
    ring
  rw [prod_congr rfl fun c _ => h2 c, ← Complex.exp_sum, Complex.ofReal_exp]
  congr 1
  rw [← sum_div, sum_neg_distrib, Spec.ip]
  push_cast
  ring

/-- Characters of a space of vectors. -/
noncomputable def char (s : ℝ) (ζ x : Fin p → ℝ) : ℂ := Complex.exp (Complex.I * (Real.sqrt (2 * s) * Spec.ip ζ x : ℝ))

theorem ip_continuous : Continuous fun q : (Fin p → ℝ) × (Fin p → ℝ) => Spec.ip q.1 q.2 := by
  unfold Spec.ip
  fun_prop

theorem char_continuous (s : ℝ) : Continuous fun q : (Fin p → ℝ) × (Fin p → ℝ) => char s q.1 q.2 := by
  unfold char
  have := ip_continuous (p := p)
  fun_prop

theorem norm_char (s : ℝ) (ζ x : Fin p → ℝ) : ‖char s ζ x‖ = 1 := by
  rw [char, mul_comm, Complex.norm_exp_ofReal_mul_I]

theorem gauss_kernel {s : ℝ} (hs : 0 ≤ s) (x x' : Fin p → ℝ) :
    (Real.exp (-(s * Spec.sqDist x x')) : ℂ) = ∫ ζ, char s ζ x * starRingEnd ℂ (char s ζ x') ∂(gauss p) := by
  have h : ∀ ζ : Fin p → ℝ, char s ζ x * starRingEnd ℂ (char s ζ x')
      = Complex.exp (Complex.I * (Spec.ip ζ (fun c => Real.sqrt (2 * s) * (x c - x' c)) : ℝ)) := by
    intro ζ
    rw [char, char, ← Complex.exp_conj, ← Complex.exp_add]
    congr 1
    rw [map_mul, Complex.conj_I, Complex.conj_ofReal]
    have : Spec.ip ζ (fun c => Real.sqrt (2 * s) * (x c - x' c))
        = Real.sqrt (2 * s) * Spec.ip ζ x - Real.sqrt (2 * s) * Spec.ip ζ x' := by
      simp only [Spec.ip, mul_sum, ← sum_sub_distrib]
      exact sum_congr rfl fun c _ => by ring
    rw [this]
    push_cast
    ring
  rw [integral_congr_ae (Eventually.of_forall h), integral_gauss]
  congr 2
  have : Spec.ip (fun c => Real.sqrt (2 * s) * (x c - x' c)) (fun c => Real.sqrt (2 * s) * (x c - x' c))
      = 2 * s * Spec.sqDist x x' := by
    rw [Spec.ip, Spec.sqDist, mul_sum]
    refine sum_congr rfl fun c _ => ?_
    rw [mul_mul_mul_comm, Real.mul_self_sqrt (by linarith), sq]
  rw [this]
  ring

/-- A continuous linear function on the space of vectors is an inner product. -/
theorem dual_eq (L : StrongDual ℝ (Fin p → ℝ)) (x : Fin p → ℝ) : L x = Spec.ip (fun c => L (Pi.single c 1)) x := by
  conv_lhs => rw [← Finset.univ_sum_single x]
  rw [map_sum, Spec.ip]
  refine sum_congr rfl fun c _ => ?_
  have : (Pi.single c (x c) : Fin p → ℝ) = x c • Pi.single c 1 := by
    rw [← Pi.single_smul, smul_eq_mul, mul_one]
  rw [this, map_smul, smul_eq_mul, mul_comm]

/-- Distributions with the same averages of all characters are equal. -/
theorem ext_char {s : ℝ} (hs : 0 < s) {μ ν : Measure (Fin p → ℝ)} [IsProbabilityMeasure μ] [IsProbabilityMeasure ν]
    (h : chr (char s) μ = chr (char s) ν) : μ = ν := by
  refine Measure.ext_of_charFunDual ?_
  funext L
  have hs' : Real.sqrt (2 * s) ≠ 0 := (Real.sqrt_pos.2 (by linarith)).ne'
  have e : ∀ x, Complex.exp (L x * Complex.I) = char s (fun c => (Real.sqrt (2 * s))⁻¹ * L (Pi.single c 1)) x := by
    intro x
    rw [char, mul_comm, dual_eq L x]
    congr 3
    simp only [Spec.ip, mul_sum]
    refine sum_congr rfl fun c _ => ?_
    field_simp
  rw [charFunDual_apply, charFunDual_apply, integral_congr_ae (Eventually.of_forall e),
    integral_congr_ae (Eventually.of_forall e)]
  exact congrFun h _

/-- Characters of a space of pairs of vectors. -/
noncomputable def char₂ (s t : ℝ) (ζ z : (Fin p → ℝ) × (Fin q → ℝ)) : ℂ := char s ζ.1 z.1 * char t ζ.2 z.2

theorem char₂_continuous (s t : ℝ) : Continuous fun w : ((Fin p → ℝ) × (Fin q → ℝ)) × ((Fin p → ℝ) × (Fin q → ℝ)) =>
    char₂ s t w.1 w.2 := by
  unfold char₂
  exact ((char_continuous s).comp (by fun_prop : Continuous fun w : ((Fin p → ℝ) × (Fin q → ℝ)) ×
    ((Fin p → ℝ) × (Fin q → ℝ)) => (w.1.1, w.2.1))).mul ((char_continuous t).comp (by fun_prop :
    Continuous fun w : ((Fin p → ℝ) × (Fin q → ℝ)) × ((Fin p → ℝ) × (Fin q → ℝ)) => (w.1.2, w.2.2)))

theorem norm_char₂ (s t : ℝ) (ζ z : (Fin p → ℝ) × (Fin q → ℝ)) : ‖char₂ s t ζ z‖ = 1 := by
  rw [char₂, norm_mul, norm_char, norm_char, one_mul]

theorem gauss_kernel₂ {s t : ℝ} (hs : 0 ≤ s) (ht : 0 ≤ t) (z z' : (Fin p → ℝ) × (Fin q → ℝ)) :
    ((Real.exp (-(s * Spec.sqDist z.1 z'.1)) * Real.exp (-(t * Spec.sqDist z.2 z'.2)) : ℝ) : ℂ)
      = ∫ ζ, char₂ s t ζ z * starRingEnd ℂ (char₂ s t ζ z') ∂((gauss p).prod (gauss q)) := by
  rw [Complex.ofReal_mul, gauss_kernel hs, gauss_kernel ht,
    ← integral_prod_mul (fun ζ => char s ζ z.1 * starRingEnd ℂ (char s ζ z'.1))
      fun ζ => char t ζ z.2 * starRingEnd ℂ (char t ζ z'.2)]
  refine integral_congr_ae (Eventually.of_forall fun ζ => ?_)
  simp only [char₂, map_mul]
  ring

theorem ext_char₂ {s t : ℝ} (hs : 0 < s) (ht : 0 < t) {μ ν : Measure ((Fin p → ℝ) × (Fin q → ℝ))}
    [IsProbabilityMeasure μ] [IsProbabilityMeasure ν] (h : chr (char₂ s t) μ = chr (char₂ s t) ν) : μ = ν := by
  refine Measure.ext_of_charFunDual ?_
  funext L
  have hs' : Real.sqrt (2 * s) ≠ 0 := (Real.sqrt_pos.2 (by linarith)).ne'
  have ht' : Real.sqrt (2 * t) ≠ 0 := (Real.sqrt_pos.2 (by linarith)).ne'
  have e : ∀ z, Complex.exp (L z * Complex.I) = char₂ s t
      (fun c => (Real.sqrt (2 * s))⁻¹ * L (Pi.single c 1, 0), fun c => (Real.sqrt (2 * t))⁻¹ * L (0, Pi.single c 1)) z := by
    intro z
    have h1 : L z = Spec.ip (fun c => L (Pi.single c 1, 0)) z.1 + Spec.ip (fun c => L (0, Pi.single c 1)) z.2 := by
      have e1 := dual_eq (L.comp (ContinuousLinearMap.inl ℝ (Fin p → ℝ) (Fin q → ℝ))) z.1
      have e2 := dual_eq (L.comp (ContinuousLinearMap.inr ℝ (Fin p → ℝ) (Fin q → ℝ))) z.2
      simp only [ContinuousLinearMap.comp_apply, ContinuousLinearMap.inl_apply, ContinuousLinearMap.inr_apply] at e1 e2
      rw [← e1, ← e2, ← map_add]
      simp
    rw [char₂, char, char, ← Complex.exp_add, ← mul_add, ← Complex.ofReal_add, mul_comm, h1]
    congr 4
    · simp only [Spec.ip, mul_sum]
      refine sum_congr rfl fun c _ => ?_
      field_simp
    · simp only [Spec.ip, mul_sum]
      refine sum_congr rfl fun c _ => ?_
      field_simp
  rw [charFunDual_apply, charFunDual_apply, integral_congr_ae (Eventually.of_forall e),
    integral_congr_ae (Eventually.of_forall e)]
  exact congrFun h _

end Charac

end Dcor

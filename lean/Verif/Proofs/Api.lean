/-
Values returned by the public covariance / correlation functions on supported calls.
-/
import Verif.Proofs.TermsOk

namespace Dcor

open Finset

variable {n p q : ℕ} {env : Env} {x y : Arr} {o : Opts} {X : Fin n → Fin p → ℝ}
  {Y : Fin n → Fin q → ℝ}

theorem sqrtClip_fin_nonneg {a : ℝ} (h : 0 ≤ a) : sqrtClip (.fin a) = .fin (Real.sqrt a) := by
  simp [sqrtClip, not_lt.2 h]

theorem sqrtClip_fin (a : ℝ) : sqrtClip (.fin a) = .fin (Real.sqrt a) := by
  show (if a < 0 then FP.fin (Real.sqrt 0) else FP.fin (Real.sqrt a)) = _
  split_ifs with h
  · rw [Real.sqrt_zero, Real.sqrt_eq_zero_of_nonpos h.le]
  · rfl

theorem ratio_eq (cov vx vy : ℝ) :
    (let d := sqrtClip (FP.abs (FP.fin vx * FP.fin vy))
     if d.IsZero then FP.fin 0 else FP.fin cov / d) = FP.fin (Spec.ratio cov vx vy) := by
  simp only [FP.fin_mul, FP.abs, sqrtClip_fin_nonneg (abs_nonneg _)]
  unfold Spec.ratio
  by_cases h : vx * vy = 0
  · have : (FP.fin (Real.sqrt |vx * vy|) : FP ℝ).IsZero := by
      show Real.sqrt |vx * vy| = 0
      simp [h]
    rw [if_pos this, if_pos h]
  · have h' : Real.sqrt |vx * vy| ≠ 0 := by
      rw [Real.sqrt_ne_zero (abs_nonneg _)]
      simpa using h
    have : ¬ (FP.fin (Real.sqrt |vx * vy|) : FP ℝ).IsZero := h'
    rw [if_neg this, if_neg h, FP.fin_div _ h']

/-- The value of the biased estimator for represented terms. -/
theorem biased_value (k1 k2 k3 : NumKind) (hn : 0 < n) {a b : Fin n → Fin n → ℝ} (ha : Symm a)
    (hb : Symm b) {mp at' bt : ℝ} {aa ba : Fin n → ℝ} (h1 : mp = ∑ i, ∑ j, a i j * b i j)
    (h2 : ∑ i, aa i * ba i = ∑ i, (∑ j, a i j) * (∑ j, b i j))
    (h3 : at' = ∑ i, ∑ j, a i j) (h4 : bt = ∑ i, ∑ j, b i j) :
    dcovFromTerms k1 k2 k3 mp aa at' ba bt false = .ok (.fin (Spec.dcovSqr a b)) := by
  rw [dcovFromTerms_biased _ _ _ hn, h1, h2, h3, h4, Spec.dcovSqr_eq_terms a b ha hb hn]

theorem unbiased_value (k1 k2 k3 : NumKind) (hn : 3 < n) {a b : Fin n → Fin n → ℝ} (ha : Symm a)
    (hb : Symm b) (ha0 : ∀ i, a i i = 0) (hb0 : ∀ i, b i i = 0) {mp at' bt : ℝ}
    {aa ba : Fin n → ℝ} (h1 : mp = ∑ i, ∑ j, a i j * b i j)
    (h2 : ∑ i, aa i * ba i = ∑ i, (∑ j, a i j) * (∑ j, b i j))
    (h3 : at' = ∑ i, ∑ j, a i j) (h4 : bt = ∑ i, ∑ j, b i j) :
    dcovFromTerms k1 k2 k3 mp aa at' ba bt true = .ok (.fin (Spec.uDcovSqr a b)) := by
  rw [dcovFromTerms_unbiased _ _ _ hn, h1, h2, h3, h4,
    Spec.uDcovSqr_eq_terms a b ha hb ha0 hb0 hn]

theorem distanceCovarianceSqr_ok (h : Supported env x y o X Y) (hn : 0 < n) :
    (distanceCovarianceSqr env x y o).out
      = .ok (.fin (Spec.dcovSqr (Spec.distMat o.exponent X) (Spec.distMat o.exponent Y))) := by
  obtain ⟨hx, hy, m, hm, hok⟩ := h
  obtain ⟨core, va, vb, k, e, hr, _⟩ := dcovTerms_ok env m hx hy o.exponent o.compileMode false hok
  unfold distanceCovarianceSqr dcovSqr
  rw [hm, PyM.lift_ok_bind, PyM.bind_ok e]
  exact biased_value _ _ _ hn (Spec.distMat_symm _ _) (Spec.distMat_symm _ _) hr.mean
    hr.axis_prod hr.aTot hr.bTot

theorem uDistanceCovarianceSqr_ok (h : Supported env x y o X Y) (hn : 3 < n)
    (hα : o.exponent ≠ 0) :
    (uDistanceCovarianceSqr env x y o).out
      = .ok (.fin (Spec.uDcovSqr (Spec.distMat o.exponent X) (Spec.distMat o.exponent Y))) := by
  obtain ⟨hx, hy, m, hm, hok⟩ := h
  obtain ⟨core, va, vb, k, e, hr, _⟩ := dcovTerms_ok env m hx hy o.exponent o.compileMode false hok
  unfold uDistanceCovarianceSqr dcovSqr
  rw [hm, PyM.lift_ok_bind, PyM.bind_ok e]
  exact unbiased_value _ _ _ hn (Spec.distMat_symm _ _) (Spec.distMat_symm _ _)
    (Spec.distMat_diag hα _) (Spec.distMat_diag hα _) hr.mean hr.axis_prod hr.aTot hr.bTot

theorem statsSqr_biased_ok (m : Method) (hx : Holds x.data n p X) (hy : Holds y.data n q Y)
    (α : ℝ) (cm : CompileMode) (hok : CallOk m x y n p q α cm) (hn : 0 < n) :
    (statsSqr env m x y α cm false).out = .ok
      ⟨.fin (Spec.dcovSqr (Spec.distMat α X) (Spec.distMat α Y)),
       .fin (Spec.dcorSqr (Spec.distMat α X) (Spec.distMat α Y)),
       .fin (Spec.dcovSqr (Spec.distMat α X) (Spec.distMat α X)),
       .fin (Spec.dcovSqr (Spec.distMat α Y) (Spec.distMat α Y))⟩ := by
  obtain ⟨core, va, vb, k, e, hr, hv⟩ := dcovTerms_ok env m hx hy α cm true hok
  obtain ⟨rfl, rfl⟩ := hv rfl
  unfold statsSqr
  rw [PyM.bind_ok e]
  simp only
  rw [biased_value _ _ _ hn (Spec.distMat_symm _ _) (Spec.distMat_symm _ _) hr.mean
      hr.axis_prod hr.aTot hr.bTot,
    biased_value _ _ _ hn (Spec.distMat_symm α X) (Spec.distMat_symm α X) rfl
      hr.axis_prod_aa hr.aTot hr.aTot,
    biased_value _ _ _ hn (Spec.distMat_symm α Y) (Spec.distMat_symm α Y) rfl
      hr.axis_prod_bb hr.bTot hr.bTot]
  simp only [PyM.lift_ok_bind, mixedDecimal_false hok.decimal_iff, Bool.false_and,
    Bool.false_eq_true, if_false, PyM.pure_out]
  congr 2
  exact ratio_eq _ _ _

theorem statsSqr_unbiased_ok (m : Method) (hx : Holds x.data n p X) (hy : Holds y.data n q Y)
    (α : ℝ) (cm : CompileMode) (hok : CallOk m x y n p q α cm) (hn : 3 < n) (hα : α ≠ 0) :
    (statsSqr env m x y α cm true).out = .ok
      ⟨.fin (Spec.uDcovSqr (Spec.distMat α X) (Spec.distMat α Y)),
       .fin (Spec.uDcorSqr (Spec.distMat α X) (Spec.distMat α Y)),
       .fin (Spec.uDcovSqr (Spec.distMat α X) (Spec.distMat α X)),
       .fin (Spec.uDcovSqr (Spec.distMat α Y) (Spec.distMat α Y))⟩ := by
  obtain ⟨core, va, vb, k, e, hr, hv⟩ := dcovTerms_ok env m hx hy α cm true hok
  obtain ⟨rfl, rfl⟩ := hv rfl
  have hX := Spec.distMat_diag hα X
  have hY := Spec.distMat_diag hα Y
  unfold statsSqr
  rw [PyM.bind_ok e]
  simp only
  rw [unbiased_value _ _ _ hn (Spec.distMat_symm _ _) (Spec.distMat_symm _ _) hX hY hr.mean
      hr.axis_prod hr.aTot hr.bTot,
    unbiased_value _ _ _ hn (Spec.distMat_symm α X) (Spec.distMat_symm α X) hX hX rfl
      hr.axis_prod_aa hr.aTot hr.aTot,
    unbiased_value _ _ _ hn (Spec.distMat_symm α Y) (Spec.distMat_symm α Y) hY hY rfl
      hr.axis_prod_bb hr.bTot hr.bTot]
  simp only [PyM.lift_ok_bind, mixedDecimal_false hok.decimal_iff, Bool.false_and,
    Bool.false_eq_true, if_false, PyM.pure_out]
  congr 2
  exact ratio_eq _ _ _

theorem distanceStatsSqr_ok (h : Supported env x y o X Y) (hn : 0 < n) :
    (distanceStatsSqr env x y o).out = .ok
      ⟨.fin (Spec.dcovSqr (Spec.distMat o.exponent X) (Spec.distMat o.exponent Y)),
       .fin (Spec.dcorSqr (Spec.distMat o.exponent X) (Spec.distMat o.exponent Y)),
       .fin (Spec.dcovSqr (Spec.distMat o.exponent X) (Spec.distMat o.exponent X)),
       .fin (Spec.dcovSqr (Spec.distMat o.exponent Y) (Spec.distMat o.exponent Y))⟩ := by
  obtain ⟨hx, hy, m, hm, hok⟩ := h
  unfold distanceStatsSqr
  rw [hm, PyM.lift_ok_bind]
  exact statsSqr_biased_ok m hx hy _ _ hok hn

theorem uDistanceStatsSqr_ok (h : Supported env x y o X Y) (hn : 3 < n) (hα : o.exponent ≠ 0) :
    (uDistanceStatsSqr env x y o).out = .ok
      ⟨.fin (Spec.uDcovSqr (Spec.distMat o.exponent X) (Spec.distMat o.exponent Y)),
       .fin (Spec.uDcorSqr (Spec.distMat o.exponent X) (Spec.distMat o.exponent Y)),
       .fin (Spec.uDcovSqr (Spec.distMat o.exponent X) (Spec.distMat o.exponent X)),
       .fin (Spec.uDcovSqr (Spec.distMat o.exponent Y) (Spec.distMat o.exponent Y))⟩ := by
  obtain ⟨hx, hy, m, hm, hok⟩ := h
  unfold uDistanceStatsSqr
  rw [hm, PyM.lift_ok_bind]
  exact statsSqr_unbiased_ok m hx hy _ _ hok hn hα

theorem distanceCorrelationSqr_ok (h : Supported env x y o X Y) (hn : 0 < n) :
    (distanceCorrelationSqr env x y o).out
      = .ok (.fin (Spec.dcorSqr (Spec.distMat o.exponent X) (Spec.distMat o.exponent Y))) := by
  obtain ⟨hx, hy, m, hm, hok⟩ := h
  unfold distanceCorrelationSqr
  rw [hm, PyM.lift_ok_bind, PyM.bind_ok (statsSqr_biased_ok m hx hy _ _ hok hn)]
  rfl

theorem uDistanceCorrelationSqr_ok (h : Supported env x y o X Y) (hn : 3 < n)
    (hα : o.exponent ≠ 0) :
    (uDistanceCorrelationSqr env x y o).out
      = .ok (.fin (Spec.uDcorSqr (Spec.distMat o.exponent X) (Spec.distMat o.exponent Y))) := by
  obtain ⟨hx, hy, m, hm, hok⟩ := h
  unfold uDistanceCorrelationSqr
  rw [hm, PyM.lift_ok_bind, PyM.bind_ok (statsSqr_unbiased_ok m hx hy _ _ hok hn hα)]
  rfl

theorem distanceCovariance_ok (h : Supported env x y o X Y) (hn : 0 < n) :
    (distanceCovariance env x y o).out
      = .ok (.fin (Real.sqrt
          (Spec.dcovSqr (Spec.distMat o.exponent X) (Spec.distMat o.exponent Y)))) := by
  unfold distanceCovariance
  rw [PyM.bind_ok (distanceCovarianceSqr_ok h hn), sqrtClip_fin]
  rfl

theorem distanceCorrelation_ok (h : Supported env x y o X Y) (hn : 0 < n) :
    (distanceCorrelation env x y o).out
      = .ok (.fin (Real.sqrt
          (Spec.dcorSqr (Spec.distMat o.exponent X) (Spec.distMat o.exponent Y)))) := by
  unfold distanceCorrelation
  rw [PyM.bind_ok (distanceCorrelationSqr_ok h hn), sqrtClip_fin]
  rfl

theorem distanceStats_ok (h : Supported env x y o X Y) (hn : 0 < n) :
    (distanceStats env x y o).out = .ok
      ⟨.fin (Real.sqrt (Spec.dcovSqr (Spec.distMat o.exponent X) (Spec.distMat o.exponent Y))),
       .fin (Real.sqrt (Spec.dcorSqr (Spec.distMat o.exponent X) (Spec.distMat o.exponent Y))),
       .fin (Real.sqrt (Spec.dcovSqr (Spec.distMat o.exponent X) (Spec.distMat o.exponent X))),
       .fin (Real.sqrt (Spec.dcovSqr (Spec.distMat o.exponent Y) (Spec.distMat o.exponent Y)))⟩
      := by
  unfold distanceStats
  rw [PyM.bind_ok (distanceStatsSqr_ok h hn)]
  simp only [sqrtClip_fin]
  rfl

end Dcor

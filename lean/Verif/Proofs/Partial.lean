/-
The partial distance covariance and correlation functions compute their definitions.
-/
import Verif.Model.Partial
import Verif.Spec.Partial
import Verif.Proofs.SpecAlg
import Verif.Proofs.Warnings

namespace Dcor

open Finset

variable {n p q r : ℕ}

theorem uProductB_same (hn : 3 < n) (k k' : NumKind) (a b : RMat n) :
    uProductB ⟨n, k, FMat.ofReal a⟩ ⟨n, k', FMat.ofReal b⟩ = .ok (.fin (uIp a b)) := by
  have hd : ¬ ((n : ℤ) * ((n : ℤ) - 3) = 0) := by
    have h3 : (3 : ℤ) < n := by exact_mod_cast hn
    intro h
    rcases mul_eq_zero.1 h with h | h <;> omega
  unfold uProductB FSq.zipWith
  simp only [dite_true]
  show npDiv _ (∑ i, ∑ j, FP.fin (a i j) * FP.fin (b i j)) _ = _
  simp only [FP.fin_mul, FP.fin_sum, npDiv, hd, and_false, if_false]
  rw [FP.fin_div _ (by exact_mod_cast hd)]
  unfold uIp
  push_cast
  rfl

/-- `_u_distance_matrix` for samples of at least three observations. -/
theorem uDistanceMatrix_ok_exp (env : Env) {x : Arr} {X : Fin n → Fin p → ℝ} (hn : 2 < n)
    (hx : Holds x.data n p X) (α : ℝ) (hd : x.dtype = .decimal → ∃ k : ℤ, α = k) :
    uDistanceMatrix env x α = ⟨dcovWarns α,
      .ok ⟨n, objKind x x, FMat.ofReal (Spec.uCentre (Spec.distMat α X))⟩⟩ := by
  have hd' : ¬ (((n : ℤ) - 1) * ((n : ℤ) - 2) = 0) := by
    have h3 : (2 : ℤ) < n := by exact_mod_cast hn
    intro h
    rcases mul_eq_zero.1 h with h | h <;> omega
  unfold uDistanceMatrix
  rw [checkValidDcovExponent_eq, PyM.mk_ok_bind, hx.to2d, PyM.lift_ok_bind,
    pdist_eq env x.ns x.dtype X α hd, PyM.lift_ok_bind]
  simp only [hd', and_false, if_false]
  rw [uCentered_symm hn _ (Spec.distMat_symm α X)]
  simp [PyM.pure]

theorem uDistanceMatrix_ok (env : Env) {x : Arr} {X : Fin n → Fin p → ℝ} (hn : 2 < n)
    (hx : Holds x.data n p X) :
    ∃ k, uDistanceMatrix env x = PyM.pure ⟨n, k, FMat.ofReal (Spec.uMat X)⟩ := by
  refine ⟨objKind x x, ?_⟩
  rw [uDistanceMatrix_ok_exp env hn hx 1 (fun _ => ⟨1, by norm_num⟩), dcovWarns,
    if_pos ⟨by norm_num, by norm_num⟩]
  rfl

namespace Spec

theorem uInner_eq_uIp {a b : RMat n} (h : ∀ i, a i i * b i i = 0) : uInner a b = uIp a b := by
  rw [uInner_eq _ _ h]
  rfl

theorem uMat_diag (X : Fin n → Fin p → ℝ) (i : Fin n) : uMat X i i = 0 := uCentre_diag _ i

theorem uInner_uMat (X : Fin n → Fin p → ℝ) (b : RMat n) : uInner (uMat X) b = uIp (uMat X) b :=
  uInner_eq_uIp fun i => by rw [uMat_diag, zero_mul]

theorem uResidual_eq (c : RMat n) (hc : ∀ i, c i i = 0) (a : RMat n) :
    uResidual c a = a - projFun c a := by
  unfold uResidual projFun
  rw [uInner_eq_uIp (a := c) (b := c) fun i => by rw [hc, zero_mul]]
  rw [uInner_eq_uIp (a := a) (b := c) fun i => by rw [hc, mul_zero]]
  split_ifs with h
  · simp
  · funext i j
    simp

/-- The residual inner product in terms of plain ones. -/
theorem uIp_residual (a b c : RMat n) :
    uIp (a - projFun c a) (b - projFun c b)
      = if uIp c c = 0 then uIp a b else uIp a b - uIp a c * uIp b c / uIp c c := by
  unfold projFun
  split_ifs with h
  · simp
  · simp only [uIp_sub_left, uIp_sub_right, uIp_smul_left, uIp_smul_right]
    rw [uIp_comm c b]
    field_simp
    ring

end Spec

/-- The complementary projection is the residual. -/
theorem complProj_ok (hn : 3 < n) {c : RMat n} (hc : ∀ i, c i i = 0) (kc k : NumKind)
    (a : RMat n) : ∃ k', (kc = .numpy → k = .numpy → k' = .numpy) ∧
      uComplementaryProjectionB ⟨n, kc, FMat.ofReal c⟩ (.fin (uIp c c)) ⟨n, k, FMat.ofReal a⟩
        = .ok ⟨n, k', FMat.ofReal (Spec.uResidual c a)⟩ := by
  rw [Spec.uResidual_eq _ hc]
  have hp : ∃ k', (kc = .numpy → k = .numpy → k' = .numpy) ∧
      uProjectionB ⟨n, kc, FMat.ofReal c⟩ (.fin (uIp c c)) ⟨n, k, FMat.ofReal a⟩
      = .ok ⟨n, k', FMat.ofReal (projFun c a)⟩ := by
    unfold uProjectionB projFun
    by_cases h0 : uIp c c = 0
    · have : (FP.fin (uIp c c) : FP ℝ).IsZero := h0
      rw [if_pos this, if_pos h0]
      exact ⟨kc, fun h _ => h, rfl⟩
    · have : ¬ (FP.fin (uIp c c) : FP ℝ).IsZero := h0
      rw [if_neg this, if_neg h0, uProductB_same hn]
      refine ⟨k.join kc, fun h h' => by rw [h, h']; rfl, ?_⟩
      show Except.ok _ = _
      congr 2
      funext i j
      show FP.fin _ / FP.fin _ * FP.fin _ = _
      rw [FP.fin_div _ h0, FP.fin_mul]
      rfl
  obtain ⟨k', hk, hp⟩ := hp
  unfold uComplementaryProjectionB
  rw [hp]
  refine ⟨k.join k', fun h h' => by rw [h', hk h h']; rfl, ?_⟩
  show FSq.zipWith _ _ _ = _
  unfold FSq.zipWith
  simp only [dite_true]
  congr 2

/-- Values of `partial_distance_covariance` on samples of the same size `n > 3`. -/
theorem partialDistanceCovariance_ok (env : Env) {x y z : Arr} {X : Fin n → Fin p → ℝ}
    {Y : Fin n → Fin q → ℝ} {Z : Fin n → Fin r → ℝ} (hn : 3 < n) (hx : Holds x.data n p X)
    (hy : Holds y.data n q Y) (hz : Holds z.data n r Z) :
    partialDistanceCovariance env x y z = PyM.pure (.fin (Spec.partialDcov X Y Z)) := by
  obtain ⟨kx, ex⟩ := uDistanceMatrix_ok env (by omega : 2 < n) hx
  obtain ⟨ky, ey⟩ := uDistanceMatrix_ok env (by omega : 2 < n) hy
  obtain ⟨kz, ez⟩ := uDistanceMatrix_ok env (by omega : 2 < n) hz
  obtain ⟨k1, -, hpx⟩ := complProj_ok hn (Spec.uMat_diag Z) kz kx (Spec.uMat X)
  obtain ⟨k2, -, hpy⟩ := complProj_ok hn (Spec.uMat_diag Z) kz ky (Spec.uMat Y)
  have hfin : uIp (Spec.uResidual (Spec.uMat Z) (Spec.uMat X))
      (Spec.uResidual (Spec.uMat Z) (Spec.uMat Y)) = Spec.partialDcov X Y Z := by
    unfold Spec.partialDcov
    rw [Spec.uInner_eq_uIp]
    intro i
    rw [Spec.uResidual]
    split_ifs <;> simp [Spec.uMat_diag]
  unfold partialDistanceCovariance
  rw [ex, ey, ez]
  simp only [PyM.pure_bind']
  rw [uProductB_same hn, PyM.lift_ok_bind, hpx, PyM.lift_ok_bind, hpy, PyM.lift_ok_bind,
    uProductB_same hn, hfin]
  rfl

theorem clip1_fin {t : ℝ} (h : |t| ≤ 1) : FP.clip1 (.fin t) = .fin t := by
  obtain ⟨h1, h2⟩ := abs_le.1 h
  show FP.fin _ = _
  rw [min_eq_left h2, max_eq_right h1]

theorem clippedCorrelation_eq {c vx vy : ℝ} (hx : 0 ≤ vx) (hy : 0 ≤ vy) (h : c ^ 2 ≤ vx * vy) :
    clippedCorrelation (.fin c) (.fin vx * .fin vy) = .fin (Spec.ratio c vx vy) := by
  have hr : |Spec.ratio c vx vy| ≤ 1 := Spec.abs_ratio_le_one h
  have hp : 0 ≤ vx * vy := mul_nonneg hx hy
  rw [← clip1_fin hr]
  unfold clippedCorrelation Spec.ratio
  rw [FP.fin_mul]
  congr 1
  by_cases h0 : vx * vy = 0
  · have : (FP.fin (vx * vy) : FP ℝ).IsZero := h0
    rw [if_pos this, if_pos h0, h0]
  · have : ¬ (FP.fin (vx * vy) : FP ℝ).IsZero := h0
    rw [if_neg this, if_neg h0, sqrtClip_fin, FP.fin_div, abs_of_nonneg hp]
    exact (Real.sqrt_pos.2 (lt_of_le_of_ne hp (Ne.symm h0))).ne'

theorem ratio_sq {c vx vy : ℝ} (hx : 0 ≤ vx) (hy : 0 ≤ vy) (h : vx * vy ≠ 0) :
    Spec.ratio c vx vy ^ 2 = c ^ 2 / (vx * vy) := by
  unfold Spec.ratio
  rw [if_neg h, div_pow, Real.sq_sqrt (abs_nonneg _), abs_of_nonneg (mul_nonneg hx hy)]

/-- The formula in terms of correlations is the cosine of the residuals. -/
theorem partial_formula {aa bb cc ab ac bc : ℝ} (ha : 0 ≤ aa) (hb : 0 ≤ bb) (hc : 0 ≤ cc)
    (hab : ab ^ 2 ≤ aa * bb) (hac : ac ^ 2 ≤ aa * cc) (hbc : bc ^ 2 ≤ bb * cc) :
    partialFromCorrelations (.fin (Spec.ratio ab aa bb)) (.fin (Spec.ratio ac aa cc))
      (.fin (Spec.ratio bc bb cc))
    = .fin (Spec.ratio (if cc = 0 then ab else ab - ac * bc / cc)
        (if cc = 0 then aa else aa - ac * ac / cc) (if cc = 0 then bb else bb - bc * bc / cc)) := by
  have hden : ∀ u v : ℝ, sqrtClip (.fin 1 - .fin u * .fin u) * sqrtClip (.fin 1 - .fin v * .fin v)
      = FP.fin (Real.sqrt (1 - u * u) * Real.sqrt (1 - v * v)) := by
    intro u v
    simp only [FP.fin_mul, FP.fin_sub, sqrtClip_fin]
  have hval : ∀ s u v : ℝ, partialFromCorrelations (.fin s) (.fin u) (.fin v)
      = .fin (if Real.sqrt (1 - u * u) * Real.sqrt (1 - v * v) = 0 then 0
          else (s - u * v) / (Real.sqrt (1 - u * u) * Real.sqrt (1 - v * v))) := by
    intro s u v
    unfold partialFromCorrelations
    simp only [hden u v]
    by_cases h : Real.sqrt (1 - u * u) * Real.sqrt (1 - v * v) = 0
    · have h' : (FP.fin (Real.sqrt (1 - u * u) * Real.sqrt (1 - v * v)) : FP ℝ).IsZero := h
      rw [if_pos h', if_pos h, h]
    · have h' : ¬ (FP.fin (Real.sqrt (1 - u * u) * Real.sqrt (1 - v * v)) : FP ℝ).IsZero := h
      rw [if_neg h', if_neg h, FP.fin_mul, FP.fin_sub, FP.fin_div _ h]
  rw [hval]
  congr 1
  by_cases hc0 : cc = 0
  · subst hc0
    have e1 : Spec.ratio ac aa 0 = 0 := by simp [Spec.ratio]
    have e2 : Spec.ratio bc bb 0 = 0 := by simp [Spec.ratio]
    simp [e1, e2]
  simp only [hc0, if_false]
  have hcp : 0 < cc := lt_of_le_of_ne hc (Ne.symm hc0)
  by_cases ha0 : aa = 0
  · subst ha0
    have hab0 : ab = 0 := by nlinarith [sq_nonneg ab]
    have hac0 : ac = 0 := by nlinarith [sq_nonneg ac]
    subst hab0 hac0
    simp [Spec.ratio]
  by_cases hb0 : bb = 0
  · subst hb0
    have hab0 : ab = 0 := by nlinarith [sq_nonneg ab]
    have hbc0 : bc = 0 := by nlinarith [sq_nonneg bc]
    subst hab0 hbc0
    simp [Spec.ratio]
  have hap : 0 < aa := lt_of_le_of_ne ha (Ne.symm ha0)
  have hbp : 0 < bb := lt_of_le_of_ne hb (Ne.symm hb0)
  -- residual variances
  have hu : 1 - Spec.ratio ac aa cc * Spec.ratio ac aa cc = (aa - ac * ac / cc) / aa := by
    rw [← sq, ratio_sq ha hc (by positivity)]
    field_simp
  have hv : 1 - Spec.ratio bc bb cc * Spec.ratio bc bb cc = (bb - bc * bc / cc) / bb := by
    rw [← sq, ratio_sq hb hc (by positivity)]
    field_simp
  have hA : 0 ≤ aa - ac * ac / cc := by
    rw [sub_nonneg, div_le_iff₀ hcp]; nlinarith
  have hB : 0 ≤ bb - bc * bc / cc := by
    rw [sub_nonneg, div_le_iff₀ hcp]; nlinarith
  have hnum : Spec.ratio ab aa bb - Spec.ratio ac aa cc * Spec.ratio bc bb cc
      = (ab - ac * bc / cc) / (Real.sqrt aa * Real.sqrt bb) := by
    have h1 : aa * bb ≠ 0 := by positivity
    have h2 : aa * cc ≠ 0 := by positivity
    have h3 : bb * cc ≠ 0 := by positivity
    simp only [Spec.ratio, h1, h2, h3, if_false]
    rw [abs_of_pos (by positivity : 0 < aa * bb), abs_of_pos (by positivity : 0 < aa * cc),
      abs_of_pos (by positivity : 0 < bb * cc), Real.sqrt_mul ha, Real.sqrt_mul ha,
      Real.sqrt_mul hb]
    have sa : Real.sqrt aa ≠ 0 := (Real.sqrt_pos.2 hap).ne'
    have sb : Real.sqrt bb ≠ 0 := (Real.sqrt_pos.2 hbp).ne'
    have sc : Real.sqrt cc ≠ 0 := (Real.sqrt_pos.2 hcp).ne'
    have sc2 : Real.sqrt cc * Real.sqrt cc = cc := Real.mul_self_sqrt hc
    rw [show ac * bc / cc = ac * bc / (Real.sqrt cc * Real.sqrt cc) by rw [sc2]]
    field_simp
  rw [hu, hv, hnum, Real.sqrt_div hA, Real.sqrt_div hB]
  have sa : Real.sqrt aa ≠ 0 := (Real.sqrt_pos.2 hap).ne'
  have sb : Real.sqrt bb ≠ 0 := (Real.sqrt_pos.2 hbp).ne'
  unfold Spec.ratio
  by_cases hz : (aa - ac * ac / cc) * (bb - bc * bc / cc) = 0
  · rw [if_pos hz, if_pos]
    rcases mul_eq_zero.1 hz with h | h <;> rw [h] <;> simp
  · have hA' : Real.sqrt (aa - ac * ac / cc) ≠ 0 := by
      rw [Real.sqrt_ne_zero hA]; exact left_ne_zero_of_mul hz
    have hB' : Real.sqrt (bb - bc * bc / cc) ≠ 0 := by
      rw [Real.sqrt_ne_zero hB]; exact right_ne_zero_of_mul hz
    rw [if_neg hz, if_neg (mul_ne_zero (div_ne_zero hA' sa) (div_ne_zero hB' sb)),
      abs_of_nonneg (mul_nonneg hA hB), Real.sqrt_mul hA]
    generalize Real.sqrt (aa - ac * ac / cc) = s1 at *
    generalize Real.sqrt (bb - bc * bc / cc) = s2 at *
    generalize ab - ac * bc / cc = t at *
    field_simp

theorem partialDcov_eq (X : Fin n → Fin p → ℝ) (Y : Fin n → Fin q → ℝ)
    (Z : Fin n → Fin r → ℝ) :
    Spec.partialDcov X Y Z = if uIp (Spec.uMat Z) (Spec.uMat Z) = 0
      then uIp (Spec.uMat X) (Spec.uMat Y)
      else uIp (Spec.uMat X) (Spec.uMat Y) - uIp (Spec.uMat X) (Spec.uMat Z)
        * uIp (Spec.uMat Y) (Spec.uMat Z) / uIp (Spec.uMat Z) (Spec.uMat Z) := by
  unfold Spec.partialDcov
  rw [Spec.uInner_eq_uIp, Spec.uResidual_eq _ (Spec.uMat_diag Z),
    Spec.uResidual_eq _ (Spec.uMat_diag Z), Spec.uIp_residual]
  intro i
  rw [Spec.uResidual]
  split_ifs <;> simp [Spec.uMat_diag]

/-- Values of `partial_distance_correlation` on samples of the same size `n > 3`. -/
theorem partialDistanceCorrelation_ok (env : Env) {x y z : Arr} {X : Fin n → Fin p → ℝ}
    {Y : Fin n → Fin q → ℝ} {Z : Fin n → Fin r → ℝ} (hn : 3 < n) (hx : Holds x.data n p X)
    (hy : Holds y.data n q Y) (hz : Holds z.data n r Z) :
    partialDistanceCorrelation env x y z = PyM.pure (.fin (Spec.partialDcor X Y Z)) := by
  obtain ⟨kx, ex⟩ := uDistanceMatrix_ok env (by omega : 2 < n) hx
  obtain ⟨ky, ey⟩ := uDistanceMatrix_ok env (by omega : 2 < n) hy
  obtain ⟨kz, ez⟩ := uDistanceMatrix_ok env (by omega : 2 < n) hz
  unfold partialDistanceCorrelation
  rw [ex, ey, ez]
  simp only [PyM.pure_bind', uProductB_same hn, PyM.lift_ok_bind]
  rw [clippedCorrelation_eq (uIp_self_nonneg hn _) (uIp_self_nonneg hn _) (uIp_cauchy hn _ _),
    clippedCorrelation_eq (uIp_self_nonneg hn _) (uIp_self_nonneg hn _) (uIp_cauchy hn _ _),
    clippedCorrelation_eq (uIp_self_nonneg hn _) (uIp_self_nonneg hn _) (uIp_cauchy hn _ _),
    partial_formula (uIp_self_nonneg hn _) (uIp_self_nonneg hn _) (uIp_self_nonneg hn _)
      (uIp_cauchy hn _ _) (uIp_cauchy hn _ _) (uIp_cauchy hn _ _)]
  unfold Spec.partialDcor
  rw [partialDcov_eq, partialDcov_eq, partialDcov_eq]

end Dcor

/-
Property C130: the partial statistics do not depend on coordinates, units and order, and follow from the bias-corrected correlations.
-/
import Verif.Props.Partial
import Verif.Proofs.TestInvariance
import Verif.Proofs.Api

namespace Dcor.Props

open Finset

variable {n p q r p' q' r' : ℕ} {env : Env} {x y z x' y' z' : Arr} {X : Fin n → Fin p → ℝ} {Y : Fin n → Fin q → ℝ}
  {Z : Fin n → Fin r → ℝ} {X' : Fin n → Fin p' → ℝ} {Y' : Fin n → Fin q' → ℝ} {Z' : Fin n → Fin r' → ℝ} {o o' : Opts}

private theorem partialDcov_similar {c d e : ℝ} (hc : 0 ≤ c) (hd : 0 ≤ d) (he : 0 < e)
    (hX : ∀ i j, ∑ k, (X' i k - X' j k) ^ 2 = c ^ 2 * ∑ k, (X i k - X j k) ^ 2)
    (hY : ∀ i j, ∑ k, (Y' i k - Y' j k) ^ 2 = d ^ 2 * ∑ k, (Y i k - Y j k) ^ 2)
    (hZ : ∀ i j, ∑ k, (Z' i k - Z' j k) ^ 2 = e ^ 2 * ∑ k, (Z i k - Z j k) ^ 2) :
    Spec.partialDcov X' Y' Z' = c * d * Spec.partialDcov X Y Z := by
  have h1 := Spec.residualMat_similar hc he 1 hX hZ
  have h2 := Spec.residualMat_similar hd he 1 hY hZ
  rw [Real.rpow_one] at h1 h2
  show Spec.uInner (Spec.residualMat 1 Z' X') (Spec.residualMat 1 Z' Y') = _
  rw [h1, h2, Spec.uInner_smul_left, Spec.uInner_smul_right, ← mul_assoc]
  rfl

private theorem ratio_scale {c d : ℝ} (hc : 0 < c) (hd : 0 < d) (u a b : ℝ) :
    Spec.ratio (c * d * u) (c * c * a) (d * d * b) = Spec.ratio u a b := by
  unfold Spec.ratio
  have e : c * c * a * (d * d * b) = (c * d) ^ 2 * (a * b) := by ring
  have h0 : (c * d) ^ 2 ≠ 0 := by positivity
  rw [e]
  by_cases h : a * b = 0
  · rw [if_pos h, if_pos (by rw [h, mul_zero])]
  · rw [if_neg h, if_neg (mul_ne_zero h0 h), abs_mul, abs_of_pos (by positivity : 0 < (c * d) ^ 2),
      Real.sqrt_mul (by positivity), Real.sqrt_sq (by positivity), mul_div_mul_left _ _ (by positivity)]

/-- C130: if the distances within the three samples are multiplied by positive factors (change of units, translations, rotations,
embeddings in another dimension), then the partial distance covariance is multiplied by the factors of the first two samples, and the
partial distance correlation does not change. -/
theorem C130_similarities {c d e : ℝ} (hc : 0 < c) (hd : 0 < d) (he : 0 < e) (h : Samples3 x y z X Y Z)
    (h' : Samples3 x' y' z' X' Y' Z') (hX : ∀ i j, ∑ k, (X' i k - X' j k) ^ 2 = c ^ 2 * ∑ k, (X i k - X j k) ^ 2)
    (hY : ∀ i j, ∑ k, (Y' i k - Y' j k) ^ 2 = d ^ 2 * ∑ k, (Y i k - Y j k) ^ 2)
    (hZ : ∀ i j, ∑ k, (Z' i k - Z' j k) ^ 2 = e ^ 2 * ∑ k, (Z i k - Z j k) ^ 2) :
    (∃ v, (partialDistanceCovariance env x y z).out = .ok (.fin v) ∧
      (partialDistanceCovariance env x' y' z').out = .ok (.fin (c * d * v))) ∧
    (partialDistanceCorrelation env x' y' z').out = (partialDistanceCorrelation env x y z).out := by
  refine ⟨⟨_, congrArg PyM.out (partialDistanceCovariance_ok env h.hn h.hx h.hy h.hz), ?_⟩, ?_⟩
  · rw [partialDistanceCovariance_ok env h'.hn h'.hx h'.hy h'.hz, partialDcov_similar hc.le hd.le he hX hY hZ]
    rfl
  · rw [partialDistanceCorrelation_ok env h.hn h.hx h.hy h.hz, partialDistanceCorrelation_ok env h'.hn h'.hx h'.hy h'.hz]
    unfold Spec.partialDcor
    rw [partialDcov_similar hc.le hd.le he hX hY hZ, partialDcov_similar hc.le hc.le he hX hX hZ,
      partialDcov_similar hd.le hd.le he hY hY hZ, ratio_scale hc hd]

private theorem uIp_uMat_reorder (σ : Equiv.Perm (Fin n)) (X : Fin n → Fin p → ℝ) (Y : Fin n → Fin q → ℝ) :
    uIp (Spec.uMat fun i => X (σ i)) (Spec.uMat fun i => Y (σ i)) = uIp (Spec.uMat X) (Spec.uMat Y) := by
  unfold Spec.uMat
  rw [← Spec.uDcovSqr_eq_uIp, ← Spec.uDcovSqr_eq_uIp]
  exact Spec.uDcovSqr_reorder σ (Spec.distMat 1 X) (Spec.distMat 1 Y)

/-- C130: applying the same permutation to the observations of the three samples does not change the partial distance covariance and
correlation. -/
theorem C130_reordering (σ : Equiv.Perm (Fin n)) (h : Samples3 x y z X Y Z)
    (h' : Samples3 x' y' z' (fun i => X (σ i)) (fun i => Y (σ i)) fun i => Z (σ i)) :
    (partialDistanceCovariance env x' y' z').out = (partialDistanceCovariance env x y z).out ∧
    (partialDistanceCorrelation env x' y' z').out = (partialDistanceCorrelation env x y z).out := by
  rw [partialDistanceCovariance_ok env h.hn h.hx h.hy h.hz, partialDistanceCovariance_ok env h'.hn h'.hx h'.hy h'.hz,
    partialDistanceCorrelation_ok env h.hn h.hx h.hy h.hz, partialDistanceCorrelation_ok env h'.hn h'.hx h'.hy h'.hz]
  unfold Spec.partialDcor
  simp only [partialDcov_eq, uIp_uMat_reorder σ, and_self]

/-- C130: `partial_distance_correlation` follows from the three results of `u_distance_correlation_sqr` like the classical partial
correlation from the correlations; it is zero if one of the samples has correlation one or minus one with `z`. -/
theorem C130_from_correlations (h : Samples3 x y z X Y Z) (hxy : Supported env x y o X Y) (hxz : Supported env x z o X Z)
    (hyz : Supported env y z o Y Z) (ho : o.exponent = 1) :
    ∃ rxy rxz ryz : ℝ, (uDistanceCorrelationSqr env x y o).out = .ok (.fin rxy) ∧
      (uDistanceCorrelationSqr env x z o).out = .ok (.fin rxz) ∧ (uDistanceCorrelationSqr env y z o).out = .ok (.fin ryz) ∧
      ((rxz ^ 2 = 1 ∨ ryz ^ 2 = 1) → (partialDistanceCorrelation env x y z).out = .ok (.fin 0)) ∧
      (rxz ^ 2 ≠ 1 → ryz ^ 2 ≠ 1 → rxz ^ 2 < 1 ∧ ryz ^ 2 < 1 ∧
        (partialDistanceCorrelation env x y z).out = .ok (.fin ((rxy - rxz * ryz) / Real.sqrt ((1 - rxz ^ 2) * (1 - ryz ^ 2))))) := by
  have he : o.exponent ≠ 0 := by rw [ho]; exact one_ne_zero
  refine ⟨_, _, _, uDistanceCorrelationSqr_ok hxy h.hn he, uDistanceCorrelationSqr_ok hxz h.hn he,
    uDistanceCorrelationSqr_ok hyz h.hn he, ?_⟩
  have e {s t : ℕ} (U : Fin n → Fin s → ℝ) (V : Fin n → Fin t → ℝ) : Spec.uDcorSqr (Spec.distMat o.exponent U)
      (Spec.distMat o.exponent V) = Spec.ratio (uIp (Spec.uMat U) (Spec.uMat V)) (uIp (Spec.uMat U) (Spec.uMat U))
        (uIp (Spec.uMat V) (Spec.uMat V)) := by
    rw [ho]
    unfold Spec.uDcorSqr
    rw [Spec.uDcovSqr_eq_uIp, Spec.uDcovSqr_eq_uIp, Spec.uDcovSqr_eq_uIp]
    rfl
  rw [partialDistanceCorrelation_ok env h.hn h.hx h.hy h.hz, e, e, e]
  have f := partial_formula (uIp_self_nonneg h.hn (Spec.uMat X)) (uIp_self_nonneg h.hn (Spec.uMat Y))
    (uIp_self_nonneg h.hn (Spec.uMat Z)) (uIp_cauchy h.hn _ _) (uIp_cauchy h.hn _ _) (uIp_cauchy h.hn _ _)
  have hX : |Spec.ratio (uIp (Spec.uMat X) (Spec.uMat Z)) (uIp (Spec.uMat X) (Spec.uMat X)) (uIp (Spec.uMat Z) (Spec.uMat Z))| ≤ 1 :=
    Spec.abs_ratio_le_one (uIp_cauchy h.hn _ _)
  have hY : |Spec.ratio (uIp (Spec.uMat Y) (Spec.uMat Z)) (uIp (Spec.uMat Y) (Spec.uMat Y)) (uIp (Spec.uMat Z) (Spec.uMat Z))| ≤ 1 :=
    Spec.abs_ratio_le_one (uIp_cauchy h.hn _ _)
  have g : FP.fin (Spec.partialDcor X Y Z) = partialFromCorrelations
      (.fin (Spec.ratio (uIp (Spec.uMat X) (Spec.uMat Y)) (uIp (Spec.uMat X) (Spec.uMat X)) (uIp (Spec.uMat Y) (Spec.uMat Y))))
      (.fin (Spec.ratio (uIp (Spec.uMat X) (Spec.uMat Z)) (uIp (Spec.uMat X) (Spec.uMat X)) (uIp (Spec.uMat Z) (Spec.uMat Z))))
      (.fin (Spec.ratio (uIp (Spec.uMat Y) (Spec.uMat Z)) (uIp (Spec.uMat Y) (Spec.uMat Y)) (uIp (Spec.uMat Z) (Spec.uMat Z)))) := by
    rw [f]
    unfold Spec.partialDcor
    rw [partialDcov_eq, partialDcov_eq, partialDcov_eq]
  show _ ∧ (_ → _ → _ ∧ _ ∧ Except.ok (FP.fin (Spec.partialDcor X Y Z)) = _)
  show (_ → Except.ok (FP.fin (Spec.partialDcor X Y Z)) = _) ∧ _
  rw [g]
  clear f g
  generalize Spec.ratio (uIp (Spec.uMat X) (Spec.uMat Y)) _ _ = s
  generalize Spec.ratio (uIp (Spec.uMat X) (Spec.uMat Z)) _ _ = u at *
  generalize Spec.ratio (uIp (Spec.uMat Y) (Spec.uMat Z)) _ _ = v at *
  have hu := (sq_le_one_iff_abs_le_one u).2 hX
  have hv := (sq_le_one_iff_abs_le_one v).2 hY
  have d : sqrtClip (.fin 1 - .fin u * .fin u) * sqrtClip (.fin 1 - .fin v * .fin v)
      = FP.fin (Real.sqrt ((1 - u ^ 2) * (1 - v ^ 2))) := by
    simp only [FP.fin_mul, FP.fin_sub, sqrtClip_fin]
    rw [Real.sqrt_mul (by linarith), pow_two, pow_two]
  unfold partialFromCorrelations
  simp only [d]
  refine ⟨fun hz => ?_, fun h1 h2 => ⟨lt_of_le_of_ne hu h1, lt_of_le_of_ne hv h2, ?_⟩⟩
  · have : (1 - u ^ 2) * (1 - v ^ 2) = 0 := by
      rcases hz with hz | hz <;> rw [hz] <;> ring
    rw [this, Real.sqrt_zero, if_pos (show (FP.fin 0 : FP ℝ).IsZero from rfl)]
  · have h3 : 0 < (1 - u ^ 2) * (1 - v ^ 2) :=
      mul_pos (sub_pos.2 (lt_of_le_of_ne hu h1)) (sub_pos.2 (lt_of_le_of_ne hv h2))
    have h4 := (Real.sqrt_pos.2 h3).ne'
    rw [if_neg (show ¬ (FP.fin (Real.sqrt ((1 - u ^ 2) * (1 - v ^ 2))) : FP ℝ).IsZero from h4), FP.fin_mul, FP.fin_sub,
      FP.fin_div _ h4]

/-- C130: conditioning never increases the dispersion: `partial_distance_covariance(x, x, z)` lies between zero and
`u_distance_covariance_sqr(x, x)`. -/
theorem C130_dispersion (h : Samples3 x x z X X Z) (hx : Supported env x x o X X) (ho : o.exponent = 1) :
    ∃ v w : ℝ, (partialDistanceCovariance env x x z).out = .ok (.fin v) ∧ (uDistanceCovarianceSqr env x x o).out = .ok (.fin w) ∧
      0 ≤ v ∧ v ≤ w := by
  have he : o.exponent ≠ 0 := by rw [ho]; exact one_ne_zero
  refine ⟨_, _, congrArg PyM.out (partialDistanceCovariance_ok env h.hn h.hx h.hy h.hz), uDistanceCovarianceSqr_ok hx h.hn he, ?_⟩
  have e : Spec.uDcovSqr (Spec.distMat o.exponent X) (Spec.distMat o.exponent X) = uIp (Spec.uMat X) (Spec.uMat X) := by
    rw [ho]
    exact Spec.uDcovSqr_eq_uIp _ _
  rw [e, partialDcov_eq]
  have a0 := uIp_self_nonneg h.hn (Spec.uMat X)
  have c0 := uIp_self_nonneg h.hn (Spec.uMat Z)
  have ac := uIp_cauchy h.hn (Spec.uMat X) (Spec.uMat Z)
  split_ifs with hz
  · exact ⟨a0, le_rfl⟩
  · have c1 : 0 < uIp (Spec.uMat Z) (Spec.uMat Z) := lt_of_le_of_ne c0 (Ne.symm hz)
    constructor
    · rw [sub_nonneg, div_le_iff₀ c1]
      nlinarith
    · rw [sub_le_self_iff]
      exact div_nonneg (mul_self_nonneg _) c1.le

/-- Samples used in the examples. -/
private def invX : Fin 5 → Fin 2 → ℝ := ![![0, 1], ![2, 5], ![3, 3], ![1, 1], ![7, 2]]
private def invY : Fin 5 → Fin 1 → ℝ := ![![0], ![2], ![3], ![1], ![5]]
private def invZ : Fin 5 → Fin 1 → ℝ := ![![4], ![2], ![0], ![1], ![1]]

private theorem samples3_mat {p q r : ℕ} (X : Fin 5 → Fin p → ℝ) (Y : Fin 5 → Fin q → ℝ) (Z : Fin 5 → Fin r → ℝ) :
    Samples3 (npMat X) (npMat Y) (npMat Z) X Y Z :=
  ⟨by norm_num, npMat_holds X, npMat_holds Y, npMat_holds Z, Iff.rfl, Iff.rfl⟩

example := C130_similarities (env := stdEnv) (c := 100) (d := 1) (e := 2) (by norm_num) (by norm_num) (by norm_num)
  (samples3_mat invX invY invZ) (samples3_mat (fun i k => 100 * invX i k) (fun i k => -invY i k) fun i k => 5 - 2 * invZ i k)
  (fun i j => by rw [mul_sum]; exact sum_congr rfl fun k _ => by ring)
  (fun i j => by rw [mul_sum]; exact sum_congr rfl fun k _ => by ring)
  (fun i j => by rw [mul_sum]; exact sum_congr rfl fun k _ => by ring)
example (σ : Equiv.Perm (Fin 5)) := C130_reordering (env := stdEnv) σ (samples3_mat invX invY invZ)
  (samples3_mat (fun i => invX (σ i)) (fun i => invY (σ i)) fun i => invZ (σ i))
example := C130_from_correlations (samples3_mat invX invY invZ) (supported_mat invX invY 1 (by norm_num))
  (supported_mat invX invZ 1 (by norm_num)) (supported_mat invY invZ 1 (by norm_num)) rfl
example := C130_dispersion (samples3_mat invX invX invZ) (supported_mat invX invX 1 (by norm_num)) rfl

end Dcor.Props

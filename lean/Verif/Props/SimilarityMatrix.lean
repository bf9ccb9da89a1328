/-
Property C132: matrices of squared distance covariances and correlations are covariance and correlation matrices.
-/
import Verif.Props.Witness
import Verif.Proofs.Api
import Verif.Proofs.Nonneg
import Verif.Proofs.FromTerms

namespace Dcor.Props

open Finset

variable {n m : ℕ} {env : Env} {dim : Fin m → ℕ} {x : Fin m → Arr} {X : (a : Fin m) → Fin n → Fin (dim a) → ℝ}
  {o : Fin m → Fin m → Opts} {α : ℝ}

/-- The quadratic form of the matrix is never negative. -/
def NonnegForm (M : Fin m → Fin m → ℝ) : Prop := ∀ c : Fin m → ℝ, 0 ≤ ∑ a, ∑ b, c a * c b * M a b

private theorem form_gram {ι : Type*} [Fintype ι] {w : ℝ} (hw : 0 ≤ w) (f : Fin m → ι → ι → ℝ) :
    NonnegForm fun a b => (∑ i, ∑ j, f a i j * f b i j) * w := by
  intro c
  have : ∑ a, ∑ b, c a * c b * ((∑ i, ∑ j, f a i j * f b i j) * w) = (∑ i, ∑ j, (∑ a, c a * f a i j) ^ 2) * w := by
    simp only [sum_mul, mul_sum, sq]
    have e (a : Fin m) : ∑ b, ∑ i, ∑ j, c a * c b * (f a i j * f b i j * w) = ∑ i, ∑ j, ∑ b, c a * c b * (f a i j * f b i j * w) := by
      rw [sum_comm]
      exact sum_congr rfl fun i _ => sum_comm
    simp only [e]
    rw [sum_comm]
    refine sum_congr rfl fun i _ => ?_
    rw [sum_comm]
    refine sum_congr rfl fun j _ => ?_
    rw [sum_comm]
    exact sum_congr rfl fun a _ => sum_congr rfl fun b _ => by ring
  rw [this]
  exact mul_nonneg (sum_nonneg fun i _ => sum_nonneg fun j _ => sq_nonneg _) hw

private theorem form_diag {M : Fin m → Fin m → ℝ} (h : NonnegForm M) (a : Fin m) : 0 ≤ M a a := by
  simpa [Pi.single_apply] using h (Pi.single a 1)

private theorem ratio_eq {M : Fin m → Fin m → ℝ} (h : NonnegForm M) (a b : Fin m) :
    Spec.ratio (M a b) (M a a) (M b b) = (Real.sqrt (M a a))⁻¹ * (Real.sqrt (M b b))⁻¹ * M a b := by
  have ha := form_diag h a
  have hb := form_diag h b
  unfold Spec.ratio
  split_ifs with h0
  · rcases mul_eq_zero.1 h0 with h0 | h0 <;> rw [h0] <;> simp
  · rw [abs_of_nonneg (mul_nonneg ha hb), Real.sqrt_mul ha, div_eq_inv_mul, mul_inv]

private theorem form_ratio {M : Fin m → Fin m → ℝ} (h : NonnegForm M) :
    NonnegForm fun a b => Spec.ratio (M a b) (M a a) (M b b) := by
  intro c
  simp only [ratio_eq h]
  refine (h fun a => c a * (Real.sqrt (M a a))⁻¹).trans_eq (sum_congr rfl fun a _ => sum_congr rfl fun b _ => by ring)

private theorem ratio_diag {M : Fin m → Fin m → ℝ} (h : NonnegForm M) (a : Fin m) :
    Spec.ratio (M a a) (M a a) (M a a) = if M a a = 0 then 0 else 1 := by
  have ha := form_diag h a
  unfold Spec.ratio
  by_cases h0 : M a a = 0
  · simp [h0]
  · rw [if_neg (mul_ne_zero h0 h0), if_neg h0, abs_of_nonneg (mul_nonneg ha ha), Real.sqrt_mul_self ha, div_self h0]

private theorem form_dcov (X : (a : Fin m) → Fin n → Fin (dim a) → ℝ) (α : ℝ) :
    NonnegForm fun a b => Spec.dcovSqr (Spec.distMat α (X a)) (Spec.distMat α (X b)) :=
  form_gram (w := ((n : ℝ) ^ 2)⁻¹) (by positivity) fun a => Spec.centre (Spec.distMat α (X a))

private theorem form_uDcov (hn : 3 < n) (X : (a : Fin m) → Fin n → Fin (dim a) → ℝ) (α : ℝ) :
    NonnegForm fun a b => Spec.uDcovSqr (Spec.distMat α (X a)) (Spec.distMat α (X b)) := by
  have hn' : (3 : ℝ) < n := by exact_mod_cast hn
  have h := form_gram (w := ((n : ℝ) * (n - 3))⁻¹) (inv_nonneg.2 (mul_nonneg (by linarith) (by linarith)))
    fun a => Spec.uCentre (Spec.distMat α (X a))
  convert h using 4 with a b
  show (∑ i, ∑ j ∈ univ.filter (· ≠ i), _) / _ = _
  rw [div_eq_mul_inv]
  congr 1
  refine sum_congr rfl fun i _ => sum_filter_of_ne fun j _ hj => ?_
  rintro rfl
  exact hj (by simp [Spec.uCentre])

private theorem form_three {G : Fin 3 → Fin 3 → ℝ} (h : NonnegForm G) (hs : ∀ a b, G a b = G b a) (hd : ∀ a, G a a ≤ 1) :
    (G 0 2 - G 0 1 * G 1 2) ^ 2 ≤ (1 - G 0 1 ^ 2) * (1 - G 1 2 ^ 2) := by
  have q (s t : ℝ) : 0 ≤ s ^ 2 * (1 - G 0 1 ^ 2) + 2 * s * t * (G 0 2 - G 0 1 * G 1 2) + t ^ 2 * (1 - G 1 2 ^ 2) := by
    have := h ![s, -(s * G 0 1 + t * G 1 2), t]
    simp only [Fin.sum_univ_three, Matrix.cons_val_zero, Matrix.cons_val_one, Matrix.cons_val] at this
    rw [hs 1 0, hs 2 0, hs 2 1] at this
    nlinarith [mul_nonneg (sq_nonneg s) (sub_nonneg.2 (hd 0)), mul_nonneg (sq_nonneg t) (sub_nonneg.2 (hd 2)),
      mul_nonneg (sq_nonneg (s * G 0 1 + t * G 1 2)) (sub_nonneg.2 (hd 1))]
  generalize G 0 2 - G 0 1 * G 1 2 = B at *
  generalize 1 - G 0 1 ^ 2 = A at *
  generalize 1 - G 1 2 ^ 2 = C at *
  have hC : 0 ≤ C := by simpa using q 0 1
  rcases hC.eq_or_lt with rfl | hC
  · nlinarith [q B (-(A + 1) / 2)]
  · have := q C (-B)
    have : 0 ≤ C * (A * C - B ^ 2) := by nlinarith
    nlinarith [nonneg_of_mul_nonneg_right this hC]

/-- C132: the matrix of the results of `distance_covariance_sqr` for all pairs of any number of samples, of any dimensions, is a
covariance matrix (symmetric and positive semidefinite). -/
theorem C132_covariance (hn : 0 < n) (h : ∀ a b, Supported env (x a) (x b) (o a b) (X a) (X b)) (hα : ∀ a b, (o a b).exponent = α) :
    ∃ M : Fin m → Fin m → ℝ, (∀ a b, (distanceCovarianceSqr env (x a) (x b) (o a b)).out = .ok (.fin (M a b))) ∧
      (∀ a b, M a b = M b a) ∧ NonnegForm M :=
  ⟨fun a b => Spec.dcovSqr (Spec.distMat α (X a)) (Spec.distMat α (X b)),
    fun a b => by rw [distanceCovarianceSqr_ok (h a b) hn, hα], fun a b => Spec.dcovSqr_comm _ _, form_dcov X α⟩

/-- C132: the same for `u_distance_covariance_sqr`. -/
theorem C132_u_covariance (hn : 3 < n) (h : ∀ a b, Supported env (x a) (x b) (o a b) (X a) (X b))
    (hα : ∀ a b, (o a b).exponent = α) (h0 : α ≠ 0) :
    ∃ M : Fin m → Fin m → ℝ, (∀ a b, (uDistanceCovarianceSqr env (x a) (x b) (o a b)).out = .ok (.fin (M a b))) ∧
      (∀ a b, M a b = M b a) ∧ NonnegForm M :=
  ⟨fun a b => Spec.uDcovSqr (Spec.distMat α (X a)) (Spec.distMat α (X b)),
    fun a b => by rw [uDistanceCovarianceSqr_ok (h a b) hn (by rwa [hα]), hα], fun a b => Spec.uDcovSqr_comm _ _, form_uDcov hn X α⟩

private theorem correlation {R : (Fin n → Fin n → ℝ) → (Fin n → Fin n → ℝ) → ℝ} {V : (Fin n → Fin n → ℝ) → (Fin n → Fin n → ℝ) → ℝ}
    (hR : ∀ a b, R a b = Spec.ratio (V a b) (V a a) (V b b)) (hV : ∀ a b, V a b = V b a)
    (hf : ∀ {m : ℕ} {dim : Fin m → ℕ} (X : (a : Fin m) → Fin n → Fin (dim a) → ℝ),
      NonnegForm fun a b => V (Spec.distMat α (X a)) (Spec.distMat α (X b))) (X : (a : Fin m) → Fin n → Fin (dim a) → ℝ) :
    (∀ a b, R (Spec.distMat α (X a)) (Spec.distMat α (X b)) = R (Spec.distMat α (X b)) (Spec.distMat α (X a))) ∧
    NonnegForm (fun a b => R (Spec.distMat α (X a)) (Spec.distMat α (X b))) ∧
    ∀ a b c, (R (Spec.distMat α (X a)) (Spec.distMat α (X c))
        - R (Spec.distMat α (X a)) (Spec.distMat α (X b)) * R (Spec.distMat α (X b)) (Spec.distMat α (X c))) ^ 2
      ≤ (1 - R (Spec.distMat α (X a)) (Spec.distMat α (X b)) ^ 2) * (1 - R (Spec.distMat α (X b)) (Spec.distMat α (X c)) ^ 2) := by
  have s (a b) : R a b = R b a := by
    rw [hR, hR, hV a b]
    unfold Spec.ratio
    rw [mul_comm (V b b)]
  have f {m : ℕ} {dim : Fin m → ℕ} (X : (a : Fin m) → Fin n → Fin (dim a) → ℝ) :
      NonnegForm fun a b => R (Spec.distMat α (X a)) (Spec.distMat α (X b)) := by
    simp only [hR]
    exact form_ratio (hf X)
  refine ⟨fun a b => s _ _, f X, fun a b c => ?_⟩
  refine form_three (f fun i => X (![a, b, c] i)) (fun i j => s _ _) fun i => ?_
  rw [hR, ratio_diag (hf fun i => X (![a, b, c] i)) i]
  split_ifs <;> norm_num

/-- C132: the matrix of the results of `distance_correlation_sqr` for all pairs of any number of samples is a correlation matrix
(symmetric and positive semidefinite), and the correlation of two samples is confined by their correlations with a third one. -/
theorem C132_correlation (hn : 0 < n) (h : ∀ a b, Supported env (x a) (x b) (o a b) (X a) (X b))
    (hα : ∀ a b, (o a b).exponent = α) :
    ∃ R : Fin m → Fin m → ℝ, (∀ a b, (distanceCorrelationSqr env (x a) (x b) (o a b)).out = .ok (.fin (R a b))) ∧
      (∀ a b, R a b = R b a) ∧ NonnegForm R ∧
      ∀ a b c, (R a c - R a b * R b c) ^ 2 ≤ (1 - R a b ^ 2) * (1 - R b c ^ 2) :=
  ⟨fun a b => Spec.dcorSqr (Spec.distMat α (X a)) (Spec.distMat α (X b)),
    fun a b => by rw [distanceCorrelationSqr_ok (h a b) hn, hα],
    correlation (R := Spec.dcorSqr) (V := Spec.dcovSqr) (fun _ _ => rfl) Spec.dcovSqr_comm (fun X => form_dcov X α) X⟩

/-- C132: the same for `u_distance_correlation_sqr`. -/
theorem C132_u_correlation (hn : 3 < n) (h : ∀ a b, Supported env (x a) (x b) (o a b) (X a) (X b))
    (hα : ∀ a b, (o a b).exponent = α) (h0 : α ≠ 0) :
    ∃ R : Fin m → Fin m → ℝ, (∀ a b, (uDistanceCorrelationSqr env (x a) (x b) (o a b)).out = .ok (.fin (R a b))) ∧
      (∀ a b, R a b = R b a) ∧ NonnegForm R ∧
      ∀ a b c, (R a c - R a b * R b c) ^ 2 ≤ (1 - R a b ^ 2) * (1 - R b c ^ 2) :=
  ⟨fun a b => Spec.uDcorSqr (Spec.distMat α (X a)) (Spec.distMat α (X b)),
    fun a b => by rw [uDistanceCorrelationSqr_ok (h a b) hn (by rwa [hα]), hα],
    correlation (R := Spec.uDcorSqr) (V := Spec.uDcovSqr) (fun _ _ => rfl) Spec.uDcovSqr_comm (fun X => form_uDcov hn X α) X⟩

/-- C132: dependence is transitive if it is strong. If the squared correlations of `x` with `y` and of `y` with `z` are positive and
the sum of their squares is greater than one, then that of `x` with `z` is positive; if the first one is one, then the other two are
equal. -/
theorem C132_transitive (hn : 0 < n) (h : ∀ a b, Supported env (x a) (x b) (o a b) (X a) (X b))
    (hα : ∀ a b, (o a b).exponent = α) (a b c : Fin m) :
    ∃ r s t, (distanceCorrelationSqr env (x a) (x b) (o a b)).out = .ok (.fin r) ∧
      (distanceCorrelationSqr env (x b) (x c) (o b c)).out = .ok (.fin s) ∧
      (distanceCorrelationSqr env (x a) (x c) (o a c)).out = .ok (.fin t) ∧
      (0 < r → 0 < s → 1 < r ^ 2 + s ^ 2 → 0 < t) ∧ (r = 1 → t = s) := by
  obtain ⟨R, hR, _, _, ht⟩ := C132_correlation hn h hα
  have := ht a b c
  refine ⟨_, _, _, hR a b, hR b c, hR a c, fun h1 h2 h3 => ?_, fun h1 => ?_⟩
  · by_contra h4
    nlinarith [mul_pos h1 h2, mul_nonneg (mul_pos h1 h2).le (neg_nonneg.2 (not_lt.1 h4)), sq_nonneg (R a c)]
  · rw [h1] at this
    have : (R a c - 1 * R b c) ^ 2 = 0 := le_antisymm (this.trans_eq (by ring)) (sq_nonneg _)
    have := pow_eq_zero_iff (two_ne_zero) |>.1 this
    linarith

/-- The samples `[0, 0, 1, 1]`, `[0, 1, 2, 3]` and `[0, 1, 0, 1]`. -/
def digits : Fin 3 → Fin 4 → ℝ := ![![0, 0, 1, 1], ![0, 1, 2, 3], ![0, 1, 0, 1]]

private theorem digits_dist (a : Fin 3) : Spec.distMat 1 (fun i (_ : Fin 1) => digits a i) = fun i j => |digits a i - digits a j| := by
  unfold Spec.distMat
  simp only [Spec.dist_one_scalar]

private theorem digits_values : (digits 0 0 = 0 ∧ digits 0 1 = 0 ∧ digits 0 2 = 1 ∧ digits 0 3 = 1) ∧
    (digits 1 0 = 0 ∧ digits 1 1 = 1 ∧ digits 1 2 = 2 ∧ digits 1 3 = 3) ∧
    (digits 2 0 = 0 ∧ digits 2 1 = 1 ∧ digits 2 2 = 0 ∧ digits 2 3 = 1) :=
  ⟨⟨rfl, rfl, rfl, rfl⟩, ⟨rfl, rfl, rfl, rfl⟩, rfl, rfl, rfl, rfl⟩

/-- C132: this is not true of `distance_correlation`, without the square. The matrix of the correlations of `[0, 0, 1, 1]`,
`[0, 1, 2, 3]` and `[0, 1, 0, 1]` has a negative eigenvalue. -/
theorem C132_root_fails (μ : Method) :
    ∃ R : Fin 3 → Fin 3 → ℝ,
      (∀ a b, (distanceCorrelation stdEnv (npVec (digits a)) (npVec (digits b)) ⟨1, .enum μ, .auto⟩).out = .ok (.fin (R a b))) ∧
      ¬ NonnegForm R := by
  refine ⟨_, fun a b => distanceCorrelation_ok (supported_vec (by norm_num) _ _ μ _ (.inl rfl)) (by norm_num), fun h => ?_⟩
  have h' (v w : Fin 4 → ℝ) : Spec.dcovSqr (fun i j => |v i - v j|) (fun i j => |w i - w j|)
      = (∑ i, ∑ j, |v i - v j| * |w i - w j|) / 16 - 2 * (∑ i, (∑ j, |v i - v j|) * ∑ j, |w i - w j|) / 64
        + (∑ i, ∑ j, |v i - v j|) * (∑ i, ∑ j, |w i - w j|) / 256 := by
    rw [Spec.dcovSqr_eq_terms _ _ (fun i j => abs_sub_comm _ _) (fun i j => abs_sub_comm _ _) (by norm_num)]
    norm_num
  have ⟨⟨a0, a1, a2, a3⟩, ⟨b0, b1, b2, b3⟩, c0, c1, c2, c3⟩ := digits_values
  have v00 : Spec.dcovSqr (fun i j => |digits 0 i - digits 0 j|) (fun i j => |digits 0 i - digits 0 j|) = 1 / 4 := by
    rw [h']
    simp only [Fin.sum_univ_four, a0, a1, a2, a3]
    norm_num
  have v11 : Spec.dcovSqr (fun i j => |digits 1 i - digits 1 j|) (fun i j => |digits 1 i - digits 1 j|) = 13 / 16 := by
    rw [h']
    simp only [Fin.sum_univ_four, b0, b1, b2, b3]
    norm_num
  have v22 : Spec.dcovSqr (fun i j => |digits 2 i - digits 2 j|) (fun i j => |digits 2 i - digits 2 j|) = 1 / 4 := by
    rw [h']
    simp only [Fin.sum_univ_four, c0, c1, c2, c3]
    norm_num
  have v01 : Spec.dcovSqr (fun i j => |digits 0 i - digits 0 j|) (fun i j => |digits 1 i - digits 1 j|) = 3 / 8 := by
    rw [h']
    simp only [Fin.sum_univ_four, a0, a1, a2, a3, b0, b1, b2, b3]
    norm_num
  have v12 : Spec.dcovSqr (fun i j => |digits 1 i - digits 1 j|) (fun i j => |digits 2 i - digits 2 j|) = 1 / 8 := by
    rw [h']
    simp only [Fin.sum_univ_four, c0, c1, c2, c3, b0, b1, b2, b3]
    norm_num
  have v02 : Spec.dcovSqr (fun i j => |digits 0 i - digits 0 j|) (fun i j => |digits 2 i - digits 2 j|) = 0 := by
    rw [h']
    simp only [Fin.sum_univ_four, a0, a1, a2, a3, c0, c1, c2, c3]
    norm_num
  have v10 := (Spec.dcovSqr_comm _ _).trans v01
  have v21 := (Spec.dcovSqr_comm _ _).trans v12
  have v20 := (Spec.dcovSqr_comm _ _).trans v02
  have q : Real.sqrt (13 / 64) = Real.sqrt 13 / 8 := by
    rw [Real.sqrt_div (by norm_num), show (64 : ℝ) = 8 ^ 2 by norm_num, Real.sqrt_sq (by norm_num)]
  have hp : 0 < Real.sqrt 13 := Real.sqrt_pos.2 (by norm_num)
  have hlt : Real.sqrt 13 < 4 := by
    rw [Real.sqrt_lt' (by norm_num)]
    norm_num
  have r00 : Spec.ratio (1 / 4) (1 / 4) (1 / 4) = 1 := by
    unfold Spec.ratio
    rw [if_neg (by norm_num), abs_of_pos (by norm_num), Real.sqrt_mul_self (by norm_num)]
    norm_num
  have r11 : Spec.ratio (13 / 16) (13 / 16) (13 / 16) = 1 := by
    unfold Spec.ratio
    rw [if_neg (by norm_num), abs_of_pos (by norm_num), Real.sqrt_mul_self (by norm_num)]
    norm_num
  have r01 : Spec.ratio (3 / 8) (1 / 4) (13 / 16) = 3 / Real.sqrt 13 := by
    unfold Spec.ratio
    rw [if_neg (by norm_num), abs_of_pos (by norm_num), show (1 / 4 * (13 / 16) : ℝ) = 13 / 64 by norm_num, q]
    field_simp
  have r12 : Spec.ratio (1 / 8) (13 / 16) (1 / 4) = 1 / Real.sqrt 13 := by
    unfold Spec.ratio
    rw [if_neg (by norm_num), abs_of_pos (by norm_num), show (13 / 16 * (1 / 4) : ℝ) = 13 / 64 by norm_num, q]
    field_simp
  have r10 : Spec.ratio (3 / 8) (13 / 16) (1 / 4) = 3 / Real.sqrt 13 := by
    unfold Spec.ratio at r01 ⊢
    rwa [mul_comm (13 / 16 : ℝ)]
  have r21 : Spec.ratio (1 / 8) (1 / 4) (13 / 16) = 1 / Real.sqrt 13 := by
    unfold Spec.ratio at r12 ⊢
    rwa [mul_comm (1 / 4 : ℝ)]
  have r02 : Spec.ratio 0 (1 / 4) (1 / 4) = 0 := by simp [Spec.ratio]
  have := h ![-Real.sqrt (3 / Real.sqrt 13), 1, -Real.sqrt (1 / Real.sqrt 13)]
  simp only [digits_dist, Fin.sum_univ_three, Spec.dcorSqr, v00, v11, v22, v01, v12, v02, v10, v21, v20, r00, r11, r01, r12, r02, r10, r21,
    Real.sqrt_one, Real.sqrt_zero, Matrix.cons_val_zero, Matrix.cons_val_one, Matrix.cons_val] at this
  have s1 := Real.mul_self_sqrt (by positivity : 0 ≤ 3 / Real.sqrt 13)
  have s2 := Real.mul_self_sqrt (by positivity : 0 ≤ 1 / Real.sqrt 13)
  have s3 : 3 / Real.sqrt 13 + 1 / Real.sqrt 13 = 4 / Real.sqrt 13 := by ring
  have s4 : 1 < 4 / Real.sqrt 13 := by rwa [lt_div_iff₀ hp, one_mul]
  nlinarith

private theorem supported_three (μ : Method) (a b : Fin 3) : Supported stdEnv (npVec (digits a)) (npVec (digits b)) ⟨1, .enum μ, .auto⟩
    (fun i (_ : Fin 1) => digits a i) (fun i (_ : Fin 1) => digits b i) :=
  supported_vec (by norm_num) _ _ μ _ (.inl rfl)

example := C132_covariance (by norm_num) (fun a b => supported_three .avl a b) fun _ _ => rfl
example := C132_u_covariance (by norm_num) (fun a b => supported_three .avl a b) (fun _ _ => rfl) one_ne_zero
example := C132_correlation (by norm_num) (fun a b => supported_three .mergesort a b) fun _ _ => rfl
example := C132_u_correlation (by norm_num) (fun a b => supported_three .naive a b) (fun _ _ => rfl) one_ne_zero
example := C132_transitive (by norm_num) (fun a b => supported_three .avl a b) (fun _ _ => rfl) 0 1 2

end Dcor.Props

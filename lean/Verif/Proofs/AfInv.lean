/-
Lemmas about the affinely invariant distance correlation.
-/
import Verif.Spec.AfInv
import Verif.Proofs.Api
import Verif.Proofs.SpecAlg
import Mathlib.LinearAlgebra.Matrix.DotProduct
import Mathlib.Analysis.Matrix.Spectrum
import Mathlib.Tactic.NoncommRing

namespace Dcor

open Matrix Finset

variable {n p q : ℕ}

theorem eigh_right (eg : Eigh) (A : Matrix (Fin p) (Fin p) ℝ) (hA : A.IsSymm) :
    (eg.eig A).2 * (eg.eig A).2.transpose = 1 :=
  mul_eq_one_comm.mp (eg.orthonormal A hA)

theorem matSqrtInv_eq (eg : Eigh) (A : Matrix (Fin p) (Fin p) ℝ) :
    matSqrtInv eg A = (eg.eig A).2 * diagonal (fun i => sqrtInvEigenvalue ((eg.eig A).1 i))
      * (eg.eig A).2.transpose := by
  unfold matSqrtInv
  dsimp only
  congr 1
  ext i j
  rw [mul_diagonal]

/-- The result does not depend on the eigendecomposition. -/
theorem matSqrtInv_unique (e₁ e₂ : Eigh) (A : Matrix (Fin p) (Fin p) ℝ) (hA : A.IsSymm) :
    matSqrtInv e₁ A = matSqrtInv e₂ A := by
  rw [matSqrtInv_eq, matSqrtInv_eq]
  have hU := e₁.orthonormal A hA
  have hU' := eigh_right e₁ A hA
  have hV := e₂.orthonormal A hA
  have hV' := eigh_right e₂ A hA
  have dU := e₁.decomposition A hA
  have dV := e₂.decomposition A hA
  generalize (e₁.eig A).2 = U at *
  generalize (e₁.eig A).1 = l at *
  generalize (e₂.eig A).2 = V at *
  generalize (e₂.eig A).1 = m at *
  have hW : diagonal l * (Uᵀ * V) = (Uᵀ * V) * diagonal m := by
    calc diagonal l * (Uᵀ * V) = (Uᵀ * U) * diagonal l * Uᵀ * V := by
          rw [hU, one_mul, Matrix.mul_assoc]
      _ = Uᵀ * (U * diagonal l * Uᵀ) * V := by simp only [Matrix.mul_assoc]
      _ = Uᵀ * (V * diagonal m * Vᵀ) * V := by rw [dU, dV]
      _ = Uᵀ * V * diagonal m * (Vᵀ * V) := by simp only [Matrix.mul_assoc]
      _ = (Uᵀ * V) * diagonal m := by rw [hV, mul_one]
  have hW' : diagonal (fun i => sqrtInvEigenvalue (l i)) * (Uᵀ * V)
      = (Uᵀ * V) * diagonal (fun i => sqrtInvEigenvalue (m i)) := by
    ext i j
    have h := congrFun (congrFun hW i) j
    rw [diagonal_mul, mul_diagonal] at h ⊢
    by_cases hz : (Uᵀ * V) i j = 0
    · rw [hz, mul_zero, zero_mul]
    · have : l i = m j := by
        rw [mul_comm] at h
        exact mul_left_cancel₀ hz h
      rw [this, mul_comm]
  calc U * diagonal (fun i => sqrtInvEigenvalue (l i)) * Uᵀ
      = U * diagonal (fun i => sqrtInvEigenvalue (l i)) * Uᵀ * (V * Vᵀ) := by rw [hV', mul_one]
    _ = U * (diagonal (fun i => sqrtInvEigenvalue (l i)) * (Uᵀ * V)) * Vᵀ := by
        simp only [Matrix.mul_assoc]
    _ = U * ((Uᵀ * V) * diagonal (fun i => sqrtInvEigenvalue (m i))) * Vᵀ := by rw [hW']
    _ = (U * Uᵀ) * V * diagonal (fun i => sqrtInvEigenvalue (m i)) * Vᵀ := by
        simp only [Matrix.mul_assoc]
    _ = _ := by rw [hU', one_mul]

theorem matSqrtInv_symm (eg : Eigh) (A : Matrix (Fin p) (Fin p) ℝ) :
    (matSqrtInv eg A)ᵀ = matSqrtInv eg A := by
  rw [matSqrtInv_eq]
  simp only [transpose_mul, transpose_transpose, diagonal_transpose, Matrix.mul_assoc]

/-- The covariance matrix is symmetric. -/
theorem covMatrix_eq (X : Fin n → Fin p → ℝ) :
    covMatrix X = ((n : ℝ) - 1)⁻¹ • ((centredColumns X)ᵀ * centredColumns X) := by
  ext i j
  simp only [covMatrix, Matrix.smul_apply, smul_eq_mul]
  rw [div_eq_inv_mul]

theorem covMatrix_symm (X : Fin n → Fin p → ℝ) : (covMatrix X).IsSymm := by
  rw [covMatrix_eq]
  unfold Matrix.IsSymm
  simp only [transpose_smul, transpose_mul, transpose_transpose]

/-- `C P P C = C` for a positive semidefinite `C` with `P` its inverse square root. -/
theorem matSqrtInv_pinv (eg : Eigh) (B : Matrix (Fin n) (Fin p) ℝ) {c : ℝ} (hc : 0 ≤ c) :
    (c • (Bᵀ * B)) * matSqrtInv eg (c • (Bᵀ * B)) * matSqrtInv eg (c • (Bᵀ * B)) * (c • (Bᵀ * B))
      = c • (Bᵀ * B) := by
  set A := c • (Bᵀ * B) with hAdef
  have hA : A.IsSymm := by
    unfold Matrix.IsSymm
    simp only [hAdef, transpose_smul, transpose_mul, transpose_transpose]
  rw [matSqrtInv_eq]
  have hU := eg.orthonormal A hA
  have dU := eg.decomposition A hA
  have hnn : ∀ i, 0 ≤ (eg.eig A).1 i := by
    intro i
    have e : diagonal (eg.eig A).1 = (eg.eig A).2ᵀ * A * (eg.eig A).2 := by
      calc diagonal (eg.eig A).1
          = ((eg.eig A).2ᵀ * (eg.eig A).2) * diagonal (eg.eig A).1
              * ((eg.eig A).2ᵀ * (eg.eig A).2) := by rw [hU, one_mul, mul_one]
        _ = (eg.eig A).2ᵀ * ((eg.eig A).2 * diagonal (eg.eig A).1 * (eg.eig A).2ᵀ)
              * (eg.eig A).2 := by simp only [Matrix.mul_assoc]
        _ = _ := by rw [dU]
    have e' : (eg.eig A).2ᵀ * A * (eg.eig A).2
        = c • ((B * (eg.eig A).2)ᵀ * (B * (eg.eig A).2)) := by
      conv_lhs => enter [1, 2]; rw [hAdef]
      simp only [Matrix.mul_smul, Matrix.smul_mul, transpose_mul, Matrix.mul_assoc]
    have h := congrFun (congrFun (e.trans e') i) i
    rw [diagonal_apply_eq, Matrix.smul_apply, smul_eq_mul, Matrix.mul_apply] at h
    rw [h]
    exact mul_nonneg hc (sum_nonneg fun k _ => by rw [transpose_apply]; exact mul_self_nonneg _)
  generalize (eg.eig A).2 = U at *
  generalize (eg.eig A).1 = l at *
  have key : diagonal l * diagonal (fun i => sqrtInvEigenvalue (l i))
      * diagonal (fun i => sqrtInvEigenvalue (l i)) * diagonal l = diagonal l := by
    rw [diagonal_mul_diagonal, diagonal_mul_diagonal, diagonal_mul_diagonal]
    congr 1
    funext i
    unfold sqrtInvEigenvalue
    rcases (hnn i).eq_or_lt with h | h
    · rw [← h, mul_zero]
    · rw [if_neg (not_le.mpr h)]
      have hs : Real.sqrt (l i) ≠ 0 := (Real.sqrt_pos.mpr h).ne'
      have hss := Real.mul_self_sqrt h.le
      field_simp
      rw [sq, hss]
  rw [← dU]
  generalize diagonal (fun i => sqrtInvEigenvalue (l i)) = G at *
  generalize diagonal l = D at *
  calc U * D * Uᵀ * (U * G * Uᵀ) * (U * G * Uᵀ) * (U * D * Uᵀ)
      = U * D * (Uᵀ * U) * G * (Uᵀ * U) * G * (Uᵀ * U) * D * Uᵀ := by
        simp only [Matrix.mul_assoc]
    _ = U * (D * G * G * D) * Uᵀ := by rw [hU]; simp only [mul_one, Matrix.mul_assoc]
    _ = U * D * Uᵀ := by rw [key]

theorem eq_zero_of_transpose_mul_self {B : Matrix (Fin n) (Fin p) ℝ} (h : Bᵀ * B = 0) : B = 0 := by
  ext i j
  have hj := congrFun (congrFun h j) j
  rw [Matrix.mul_apply, Matrix.zero_apply] at hj
  exact mul_self_eq_zero.mp ((sum_eq_zero_iff_of_nonneg fun k _ => mul_self_nonneg (B k j)).mp hj i
    (mem_univ i))

/-- The rows of a sample belong to the range of its covariance matrix. -/
theorem centred_range (eg : Eigh) (hn : 2 ≤ n) (X : Fin n → Fin p → ℝ) :
    centredColumns X * matSqrtInv eg (covMatrix X) * matSqrtInv eg (covMatrix X) * covMatrix X
      = centredColumns X := by
  have hn1 : (0 : ℝ) < (n : ℝ) - 1 := by
    have : (2 : ℝ) ≤ n := by exact_mod_cast hn
    linarith
  have hp := matSqrtInv_pinv eg (centredColumns X) (inv_nonneg.mpr hn1.le)
  rw [← covMatrix_eq] at hp
  have hP := matSqrtInv_symm eg (covMatrix X)
  have hC := covMatrix_symm X
  unfold Matrix.IsSymm at hC
  have hB : (centredColumns X)ᵀ * centredColumns X = ((n : ℝ) - 1) • covMatrix X := by
    rw [covMatrix_eq, smul_smul, mul_inv_cancel₀ hn1.ne', one_smul]
  generalize matSqrtInv eg (covMatrix X) = P at *
  generalize covMatrix X = C at *
  generalize centredColumns X = B at *
  have : B * P * P * C - B = 0 := by
    apply eq_zero_of_transpose_mul_self
    rw [transpose_sub]
    simp only [transpose_mul, hP, hC]
    calc (C * (P * (P * Bᵀ)) - Bᵀ) * (B * P * P * C - B)
        = C * P * P * (Bᵀ * B) * P * P * C - C * P * P * (Bᵀ * B) - (Bᵀ * B) * P * P * C
            + Bᵀ * B := by
          simp only [Matrix.sub_mul, Matrix.mul_sub, Matrix.mul_assoc]
          abel
      _ = ((n : ℝ) - 1) • (C * P * P * C * P * P * C - C * P * P * C - C * P * P * C + C) := by
          rw [hB]
          simp only [Matrix.smul_mul, Matrix.mul_smul, smul_sub, smul_add]
      _ = 0 := by
          rw [hp, hp]
          simp
  exact sub_eq_zero.mp this

/-- Squared distances between the whitened rows. -/
theorem afInvRows_dist (eg : Eigh) (X : Fin n → Fin p → ℝ) (i j : Fin n) :
    ∑ k, (afInvRows eg X i k - afInvRows eg X j k) ^ 2
      = ((n : ℝ) - 1)⁻¹ ^ 2 *
        ∑ k, ((centredColumns X * matSqrtInv eg (covMatrix X)) i k
              - (centredColumns X * matSqrtInv eg (covMatrix X)) j k) ^ 2 := by
  rw [mul_sum]
  refine sum_congr rfl fun k _ => ?_
  rw [← mul_pow]
  congr 1
  unfold afInvRows
  have : ∀ i, (centredColumns X * matSqrtInv eg (covMatrix X)) i k
      = (Matrix.of X * matSqrtInv eg (covMatrix X)) i k
        - ∑ l, (∑ r, X r l) / n * matSqrtInv eg (covMatrix X) l k := by
    intro i
    rw [Matrix.mul_apply, Matrix.mul_apply, ← sum_sub_distrib]
    refine sum_congr rfl fun l _ => ?_
    rw [Matrix.of_apply]
    unfold centredColumns
    ring
  rw [this, this]
  ring

theorem gram_dist (B : Matrix (Fin n) (Fin p) ℝ) (i j : Fin n) :
    ∑ k, (B i k - B j k) ^ 2 = (B * Bᵀ) i i - 2 * (B * Bᵀ) i j + (B * Bᵀ) j j := by
  simp only [Matrix.mul_apply, transpose_apply, mul_sum, ← sum_sub_distrib, ← sum_add_distrib]
  exact sum_congr rfl fun k _ => by ring

theorem centred_affine (hn : 0 < n) (X : Fin n → Fin p → ℝ) (M : Matrix (Fin p) (Fin q) ℝ)
    (b : Fin q → ℝ) : centredColumns (affineRows X M b) = centredColumns X * M := by
  have hn0 : (n : ℝ) ≠ 0 := by exact_mod_cast hn.ne'
  ext i j
  rw [Matrix.mul_apply]
  unfold centredColumns affineRows
  rw [sum_add_distrib, sum_comm, sum_const, card_univ, Fintype.card_fin, nsmul_eq_mul, add_div,
    mul_div_cancel_left₀ _ hn0, sum_div]
  have : ∑ k, (X i k - (∑ r, X r k) / n) * M k j
      = ∑ k, X i k * M k j - ∑ k, (∑ r, X r k * M k j) / n := by
    rw [← sum_sub_distrib]
    refine sum_congr rfl fun k _ => ?_
    rw [← sum_mul]
    ring
  rw [this]
  ring

theorem cov_affine (hn : 0 < n) (X : Fin n → Fin p → ℝ) (M : Matrix (Fin p) (Fin q) ℝ)
    (b : Fin q → ℝ) : covMatrix (affineRows X M b) = Mᵀ * covMatrix X * M := by
  rw [covMatrix_eq, covMatrix_eq, centred_affine hn]
  simp only [transpose_mul, Matrix.mul_smul, Matrix.smul_mul, Matrix.mul_assoc]

/-- The whitened samples are isometric. -/
theorem afInv_isometric (e₁ e₂ : Eigh) (hn : 2 ≤ n) (X : Fin n → Fin p → ℝ)
    (M : Matrix (Fin p) (Fin q) ℝ) (N : Matrix (Fin q) (Fin p) ℝ) (hMN : M * N = 1)
    (b : Fin q → ℝ) (i j : Fin n) :
    ∑ k, (afInvRows e₂ (affineRows X M b) i k - afInvRows e₂ (affineRows X M b) j k) ^ 2
      = ∑ k, (afInvRows e₁ X i k - afInvRows e₁ X j k) ^ 2 := by
  have hn1 : (0 : ℝ) < (n : ℝ) - 1 := by
    have : (2 : ℝ) ≤ n := by exact_mod_cast hn
    linarith
  rw [afInvRows_dist, afInvRows_dist, gram_dist, gram_dist]
  suffices h : (centredColumns (affineRows X M b) * matSqrtInv e₂ (covMatrix (affineRows X M b)))
      * (centredColumns (affineRows X M b) * matSqrtInv e₂ (covMatrix (affineRows X M b)))ᵀ
      = (centredColumns X * matSqrtInv e₁ (covMatrix X))
        * (centredColumns X * matSqrtInv e₁ (covMatrix X))ᵀ by rw [h]
  have hp := matSqrtInv_pinv e₁ (centredColumns X) (inv_nonneg.mpr hn1.le)
  rw [← covMatrix_eq] at hp
  have hp' := matSqrtInv_pinv e₂ (centredColumns (affineRows X M b)) (inv_nonneg.mpr hn1.le)
  rw [← covMatrix_eq] at hp'
  have hr := centred_range e₁ hn X
  have hP := matSqrtInv_symm e₁ (covMatrix X)
  have hP' := matSqrtInv_symm e₂ (covMatrix (affineRows X M b))
  have hC := covMatrix_symm X
  unfold Matrix.IsSymm at hC
  have hca := cov_affine (by omega) X M b
  rw [centred_affine (by omega)]
  have hNM : Nᵀ * Mᵀ = 1 := by rw [← transpose_mul, hMN, transpose_one]
  generalize matSqrtInv e₁ (covMatrix X) = P at *
  generalize matSqrtInv e₂ (covMatrix (affineRows X M b)) = P' at *
  generalize covMatrix (affineRows X M b) = C' at *
  generalize covMatrix X = C at *
  generalize centredColumns X = B at *
  obtain ⟨G, hG⟩ : ∃ G, B = G * C := ⟨B * P * P, hr.symm⟩
  have hCM : C * M = Nᵀ * C' := by
    rw [hca]
    simp only [← Matrix.mul_assoc]
    rw [hNM, one_mul]
  have hMC : Mᵀ * C = C' * N := by
    rw [hca, Matrix.mul_assoc, hMN, Matrix.mul_one]
  have hR : Nᵀ * C' * N = C := by rw [← hCM, Matrix.mul_assoc, hMN, mul_one]
  subst hG
  simp only [transpose_mul, hP, hP', hC]
  calc G * C * M * P' * (P' * (Mᵀ * (C * Gᵀ)))
      = G * (C * M) * P' * P' * (Mᵀ * C) * Gᵀ := by simp only [Matrix.mul_assoc]
    _ = G * (Nᵀ * (C' * P' * P' * C') * N) * Gᵀ := by
        rw [hCM, hMC]
        simp only [Matrix.mul_assoc]
    _ = G * (C * P * P * C) * Gᵀ := by rw [hp', hR, hp]
    _ = G * C * P * (P * (C * Gᵀ)) := by simp only [Matrix.mul_assoc]

theorem matSqrtInv_one (eg : Eigh) : matSqrtInv eg (1 : Matrix (Fin p) (Fin p) ℝ) = 1 := by
  rw [matSqrtInv_eq]
  have hs : (1 : Matrix (Fin p) (Fin p) ℝ).IsSymm := transpose_one
  have hU := eg.orthonormal _ hs
  have hU' := eigh_right eg _ hs
  have dU := eg.decomposition _ hs
  generalize (eg.eig (1 : Matrix (Fin p) (Fin p) ℝ)).2 = U at *
  generalize (eg.eig (1 : Matrix (Fin p) (Fin p) ℝ)).1 = l at *
  have hd : diagonal l = 1 := by
    calc diagonal l = (Uᵀ * U) * diagonal l * (Uᵀ * U) := by rw [hU, one_mul, mul_one]
      _ = Uᵀ * (U * diagonal l * Uᵀ) * U := by simp only [Matrix.mul_assoc]
      _ = 1 := by rw [dU, mul_one, hU]
  have hl : ∀ i, l i = 1 := fun i => by
    have := congrFun (congrFun hd i) i
    rwa [diagonal_apply_eq, one_apply_eq] at this
  have : (diagonal fun i => sqrtInvEigenvalue (l i)) = (1 : Matrix (Fin p) (Fin p) ℝ) := by
    rw [← diagonal_one]
    congr 1
    funext i
    rw [hl i]
    unfold sqrtInvEigenvalue
    norm_num
  rw [this, mul_one, hU']

/-- A sample that is already white is only divided by `n - 1`. -/
theorem afInvRows_white (eg : Eigh) (X : Fin n → Fin p → ℝ) (h : covMatrix X = 1) :
    afInvRows eg X = fun i k => ((n : ℝ) - 1)⁻¹ * X i k := by
  funext i k
  unfold afInvRows
  rw [h, matSqrtInv_one, Matrix.mul_one, Matrix.of_apply, div_eq_inv_mul]

theorem afInvRows_eigh (e₁ e₂ : Eigh) (X : Fin n → Fin p → ℝ) :
    afInvRows e₁ X = afInvRows e₂ X := by
  unfold afInvRows
  rw [matSqrtInv_unique e₁ e₂ _ (covMatrix_symm X)]

theorem afInvScaled_ok (eg : Eigh) {x : Arr} {X : Fin n → Fin p → ℝ} (hx : Holds x.data n p X)
    (hn : 2 ≤ n) (ho : x.dtype.isObject = false) :
    afInvScaled eg x = .ok ⟨x.ns, x.dtype.scaled, .mat n p (afInvRows eg X)⟩ := by
  unfold afInvScaled
  rw [hx.to2d, Except.ok_bind']
  dsimp only
  rw [if_neg (by omega), ho]
  rfl

variable {env : Env} {x y : Arr} {m : MethodLike} {cm : CompileMode}
  {X : Fin n → Fin p → ℝ} {Y : Fin n → Fin q → ℝ}

theorem CallOk.congr {a : Method} {x y x' y' : Arr} {α : ℝ} (hx : x'.ns = x.ns)
    (hx' : x'.dtype = x.dtype) (hy : y'.ns = y.ns) (hy' : y'.dtype = y.dtype)
    (h : CallOk a x y n p q α cm) : CallOk a x' y' n p q α cm := by
  unfold CallOk NaiveOk AvlOk MergesortOk at *
  rw [hx, hx', hy, hy']
  exact h

theorem afInvSqr_ok (eg : Eigh) (h : AfSupported env x y m cm X Y) :
    (distanceCorrelationAfInvSqr eg env x y m cm).out
      = .ok (.fin (Spec.dcorSqr (Spec.distMat 1 (afInvRows eg X))
          (Spec.distMat 1 (afInvRows eg Y)))) := by
  obtain ⟨hx, hy, hn, hxo, hyo, a, ha, hok⟩ := h
  unfold distanceCorrelationAfInvSqr
  rw [afInvScaled_ok eg hx hn hxo, afInvScaled_ok eg hy hn hyo, PyM.lift_ok_bind, PyM.lift_ok_bind,
    PyM.bind_ok (distanceCorrelationSqr_ok (X := afInvRows eg X) (Y := afInvRows eg Y)
      ⟨Holds.mat _ _ _, Holds.mat _ _ _, a, ha, ?_⟩ (by omega))]
  · rw [if_neg nofun]
    rfl
  · exact CallOk.congr (x := ⟨x.ns, x.dtype.scaled, x.data⟩) (y := ⟨y.ns, y.dtype.scaled, y.data⟩)
      rfl rfl rfl rfl hok

theorem afInv_ok (eg : Eigh) (h : AfSupported env x y m cm X Y) :
    (distanceCorrelationAfInv eg env x y m cm).out
      = .ok (.fin (Real.sqrt (Spec.dcorSqr (Spec.distMat 1 (afInvRows eg X))
          (Spec.distMat 1 (afInvRows eg Y))))) := by
  unfold distanceCorrelationAfInv
  rw [PyM.bind_ok (afInvSqr_ok eg h), sqrtClip_fin]
  rfl

theorem afInv_distMat (e₁ e₂ : Eigh) (hn : 2 ≤ n) (X : Fin n → Fin p → ℝ) {r : ℕ}
    (M : Matrix (Fin p) (Fin r) ℝ) (N : Matrix (Fin r) (Fin p) ℝ) (hMN : M * N = 1)
    (b : Fin r → ℝ) :
    Spec.distMat 1 (afInvRows e₂ (affineRows X M b)) = Spec.distMat 1 (afInvRows e₁ X) :=
  Spec.distMat_isometry 1 _ _ (afInv_isometric e₁ e₂ hn X M N hMN b)

theorem covMatrix_white (h : Spec.White X) : covMatrix X = 1 := by
  ext k l
  have := h k l
  rw [Matrix.one_apply, ← this]
  unfold covMatrix Spec.sampleCov
  rw [Matrix.mul_apply]
  rfl

/-- Distances of the scaled sample are those of a whitened one, up to a factor. -/
theorem afInv_white_distMat (eg : Eigh) (hn : 2 ≤ n) (X : Fin n → Fin p → ℝ) {r : ℕ}
    (M : Matrix (Fin p) (Fin r) ℝ) (N : Matrix (Fin r) (Fin p) ℝ) (hMN : M * N = 1)
    (b : Fin r → ℝ) (hw : Spec.White (affineRows X M b)) :
    Spec.distMat 1 (afInvRows eg X)
      = ((n : ℝ) - 1)⁻¹ • Spec.distMat 1 (affineRows X M b) := by
  have hn1 : (0 : ℝ) < (n : ℝ) - 1 := by
    have : (2 : ℝ) ≤ n := by exact_mod_cast hn
    linarith
  rw [← afInv_distMat eg eg hn X M N hMN b, afInvRows_white eg _ (covMatrix_white hw),
    Spec.distMat_scale, Real.rpow_one, abs_of_pos (inv_pos.mpr hn1)]

/-- For one component the sample is multiplied by a positive number, unless it is constant. -/
theorem afInv_univariate_aux (eg : Eigh) (hn : 2 ≤ n) (X : Fin n → Fin 1 → ℝ)
    (hv : ∃ i j, X i 0 ≠ X j 0) : ∃ t : ℝ, 0 < t ∧
    Spec.distMat 1 (afInvRows eg X) = t • Spec.distMat 1 X := by
  have hn1 : (0 : ℝ) < (n : ℝ) - 1 := by
    have : (2 : ℝ) ≤ n := by exact_mod_cast hn
    linarith
  have hvar : 0 < Spec.sampleCov X 0 0 := by
    unfold Spec.sampleCov
    refine div_pos ?_ hn1
    have h0 : 0 ≤ ∑ i, (X i 0 - (∑ r, X r 0) / n) * (X i 0 - (∑ r, X r 0) / n) :=
      sum_nonneg fun i _ => mul_self_nonneg _
    rcases h0.eq_or_lt with h | h
    · exfalso
      have hz : ∀ i ∈ univ, (X i 0 - (∑ r, X r 0) / n) * (X i 0 - (∑ r, X r 0) / n) = 0 :=
        (sum_eq_zero_iff_of_nonneg fun i _ => mul_self_nonneg _).mp h.symm
      obtain ⟨i, j, hij⟩ := hv
      apply hij
      have hi := mul_self_eq_zero.mp (hz i (mem_univ i))
      have hj := mul_self_eq_zero.mp (hz j (mem_univ j))
      linarith
    · exact h
  set v := Spec.sampleCov X 0 0 with hvdef
  set s := (Real.sqrt v)⁻¹ with hs
  have hs0 : 0 < s := inv_pos.mpr (Real.sqrt_pos.mpr hvar)
  have hss : s * s * v = 1 := by
    have := Real.mul_self_sqrt hvar.le
    rw [hs, ← mul_inv, this, inv_mul_cancel₀ hvar.ne']
  let M : Matrix (Fin 1) (Fin 1) ℝ := fun _ _ => s
  let N : Matrix (Fin 1) (Fin 1) ℝ := fun _ _ => s⁻¹
  have hMN : M * N = 1 := by
    ext i j
    rw [Matrix.mul_apply, Matrix.one_apply, if_pos (Subsingleton.elim i j)]
    simp [M, N, hs0.ne']
  have haff : affineRows X M 0 = fun i k => s * X i k := by
    funext i k
    unfold affineRows
    rw [Pi.zero_apply, add_zero, Fin.sum_univ_one, Subsingleton.elim k 0]
    exact mul_comm _ _
  have hw : Spec.White (affineRows X M 0) := by
    intro k l
    rw [Subsingleton.elim k 0, Subsingleton.elim l 0, if_pos rfl, haff]
    refine Eq.trans ?_ hss
    rw [hvdef]
    unfold Spec.sampleCov
    rw [← mul_div_assoc]
    congr 1
    rw [mul_sum, ← mul_sum univ (fun r => X r 0) s]
    exact sum_congr rfl fun i _ => by ring
  refine ⟨((n : ℝ) - 1)⁻¹ * s, mul_pos (inv_pos.mpr hn1) hs0, ?_⟩
  rw [afInv_white_distMat eg hn X M N hMN 0 hw, haff, Spec.distMat_scale, Real.rpow_one,
    abs_of_pos hs0, smul_smul]

/-- For one component the distances are multiplied by a positive number. -/
theorem afInv_univariate (eg : Eigh) (hn : 2 ≤ n) (X : Fin n → Fin 1 → ℝ) : ∃ t : ℝ, 0 < t ∧
    Spec.distMat 1 (afInvRows eg X) = t • Spec.distMat 1 X := by
  by_cases hv : ∃ i j, X i 0 ≠ X j 0
  · exact afInv_univariate_aux eg hn X hv
  · push Not at hv
    have hc : ∀ i j, X i = X j := fun i j => funext fun k => by
      rw [Subsingleton.elim k 0]
      exact hv i j
    refine ⟨1, one_pos, ?_⟩
    rw [(Spec.distMat_eq_zero one_pos X).2 hc, smul_zero, Spec.distMat_eq_zero one_pos]
    intro i j
    funext k
    unfold afInvRows
    rw [Matrix.mul_apply, Matrix.mul_apply]
    simp only [Matrix.of_apply, hc i j]

/-- Scaling does not make different observations all equal. -/
theorem afInv_constant (eg : Eigh) (hn : 2 ≤ n) (X : Fin n → Fin p → ℝ)
    (hc : ∀ i j, afInvRows eg X i = afInvRows eg X j) : ∀ i j, X i = X j := by
  have hn1 : (0 : ℝ) < (n : ℝ) - 1 := by
    have : (2 : ℝ) ≤ n := by exact_mod_cast hn
    linarith
  have hn0 : (n : ℝ) ≠ 0 := by positivity
  have hrow : ∀ i j k, (centredColumns X * matSqrtInv eg (covMatrix X)) i k
      = (centredColumns X * matSqrtInv eg (covMatrix X)) j k := by
    intro i j k
    have h := afInvRows_dist eg X i j
    rw [hc i j] at h
    simp only [sub_self, ne_eq, OfNat.ofNat_ne_zero, not_false_eq_true, zero_pow, sum_const_zero]
      at h
    have h2 := (mul_eq_zero.mp h.symm).resolve_left (pow_ne_zero 2 (inv_ne_zero hn1.ne'))
    have h3 := (sum_eq_zero_iff_of_nonneg fun k _ => sq_nonneg _).mp h2 k (mem_univ k)
    exact sub_eq_zero.mp (pow_eq_zero_iff (two_ne_zero) |>.mp h3)
  have hcol : ∀ l, ∑ i, centredColumns X i l = 0 := by
    intro l
    unfold centredColumns
    rw [sum_sub_distrib, sum_const, card_univ, Fintype.card_fin, nsmul_eq_mul,
      mul_div_cancel₀ _ hn0, sub_self]
  have hBP : centredColumns X * matSqrtInv eg (covMatrix X) = 0 := by
    ext i k
    have hs : ∑ j, (centredColumns X * matSqrtInv eg (covMatrix X)) j k = 0 := by
      simp only [Matrix.mul_apply]
      rw [sum_comm]
      refine sum_eq_zero fun l _ => ?_
      rw [← sum_mul, hcol, zero_mul]
    rw [sum_congr rfl fun j _ => hrow j i k, sum_const, card_univ, Fintype.card_fin,
      nsmul_eq_mul] at hs
    exact (mul_eq_zero.mp hs).resolve_left hn0
  have hB : centredColumns X = 0 := by
    rw [← centred_range eg hn X, hBP, Matrix.zero_mul, Matrix.zero_mul]
  intro i j
  funext k
  have hi := congrFun (congrFun hB i) k
  have hj := congrFun (congrFun hB j) k
  unfold centredColumns at hi hj
  rw [Matrix.zero_apply] at hi hj
  linarith

/-- An `eigh` exists, by the spectral theorem. -/
noncomputable def stdEigh : Eigh :=
  have key : ∀ {p : ℕ} (A : Matrix (Fin p) (Fin p) ℝ), A.IsSymm →
      ∃ r : (Fin p → ℝ) × Matrix (Fin p) (Fin p) ℝ,
        r.2ᵀ * r.2 = 1 ∧ r.2 * diagonal r.1 * r.2ᵀ = A := by
    intro p A hA
    have hH : A.IsHermitian := by
      unfold Matrix.IsHermitian
      rw [conjTranspose_eq_transpose_of_trivial]
      exact hA
    refine ⟨(hH.eigenvalues, (hH.eigenvectorUnitary : Matrix (Fin p) (Fin p) ℝ)), ?_, ?_⟩
    · have h := Unitary.coe_star_mul_self hH.eigenvectorUnitary
      rwa [star_eq_conjTranspose, conjTranspose_eq_transpose_of_trivial] at h
    · have h := hH.spectral_theorem
      rw [Unitary.conjStarAlgAut_apply, star_eq_conjTranspose,
        conjTranspose_eq_transpose_of_trivial] at h
      exact h.symm
  open Classical in
  { eig := fun {_} A => if h : A.IsSymm then (key A h).choose else (0, 0)
    orthonormal := fun A h => by
      rw [dif_pos h]
      exact (key A h).choose_spec.1
    decomposition := fun A h => by
      rw [dif_pos h]
      exact (key A h).choose_spec.2 }

end Dcor

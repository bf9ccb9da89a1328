/-
Properties C21, C22, C24, C25: centring, the U-product and the projections.
-/
import Verif.Proofs.Projection
import Mathlib.Tactic.FinCases

namespace Dcor.Props

open Finset

variable {n : ℕ}

/-! ### C21 -/

/-- C21: on a symmetric matrix `double_centered` returns the documented matrix
`aᵢⱼ - āᵢ· - ā·ⱼ + ā··`, all of whose rows and columns sum to zero; it is symmetric and a second
application changes nothing. -/
theorem C21_double_centered (a : Fin n → Fin n → ℝ) (ha : ∀ i j, a i j = a j i) :
    ∃ c : Fin n → Fin n → ℝ,
      doubleCentered (FMat.ofReal a) = FMat.ofReal c ∧
      (∀ i j, c i j = a i j - (∑ l, a i l) / n - (∑ k, a k j) / n
        + (∑ k, ∑ l, a k l) / n ^ 2) ∧
      (∀ i, ∑ j, c i j = 0) ∧ (∀ j, ∑ i, c i j = 0) ∧ (∀ i j, c i j = c j i) ∧
      doubleCentered (FMat.ofReal c) = FMat.ofReal c := by
  refine ⟨Spec.centre a, doubleCentered_symm a ha, fun _ _ => rfl, Spec.sum_centre_row a,
    Spec.sum_centre_col a, Spec.centre_symm a ha, ?_⟩
  rw [doubleCentered_symm _ (Spec.centre_symm a ha)]
  congr 1
  funext i j
  rw [Spec.centre.eq_1 (Spec.centre a)]
  simp only [Spec.sum_centre_row, Spec.sum_centre_col]
  simp

/-- Without symmetry the rows still sum to zero (the columns need not). -/
theorem C21_rows_always_zero (a : Fin n → Fin n → ℝ) :
    ∃ c : Fin n → Fin n → ℝ, doubleCentered (FMat.ofReal a) = FMat.ofReal c ∧
      ∀ i, ∑ j, c i j = 0 := by
  refine ⟨_, doubleCentered_ofReal a, ?_⟩
  intro i
  have hn : (n : ℝ) ≠ 0 := by have := i.pos; positivity
  simp only [sum_add_distrib, sum_sub_distrib, sum_const, card_univ, Fintype.card_fin,
    nsmul_eq_mul, ← sum_div]
  field_simp
  ring

/-- The symmetry hypothesis of C21 is needed: for this matrix a column of the result does not sum
to zero. -/
theorem C21_symmetry_needed :
    ∃ (a c : Fin 2 → Fin 2 → ℝ), doubleCentered (FMat.ofReal a) = FMat.ofReal c ∧
      ∑ i, c i 0 ≠ 0 := by
  refine ⟨![![0, 1], ![0, 0]], _, doubleCentered_ofReal _, ?_⟩
  simp [Fin.sum_univ_two]
  norm_num

/-- A symmetric matrix as in C21. -/
example : ∀ i j : Fin 3, (![![0, 1, 4], ![1, 0, 2], ![4, 2, 0]] i j : ℝ)
    = ![![0, 1, 4], ![1, 0, 2], ![4, 2, 0]] j i := by
  intro i j; fin_cases i <;> fin_cases j <;> rfl

/-! ### C22 -/

/-- C22: for `n ≥ 3` and a symmetric hollow matrix, `u_centered` returns the documented matrix,
which is hollow, has zero row and column sums and is not changed by a second application. -/
theorem C22_u_centered (hn : 3 ≤ n) (a : Fin n → Fin n → ℝ) (ha : ∀ i j, a i j = a j i)
    (h0 : ∀ i, a i i = 0) :
    ∃ c : Fin n → Fin n → ℝ,
      uCentered (FMat.ofReal a) = FMat.ofReal c ∧
      (∀ i, c i i = 0) ∧
      (∀ i j, i ≠ j → c i j = a i j - (∑ l, a i l) / (n - 2) - (∑ k, a k j) / (n - 2)
        + (∑ k, ∑ l, a k l) / ((n - 1) * (n - 2))) ∧
      (∀ i, ∑ j, c i j = 0) ∧ (∀ j, ∑ i, c i j = 0) ∧
      uCentered (FMat.ofReal c) = FMat.ofReal c := by
  refine ⟨Spec.uCentre a, uCentered_symm (by omega) a ha, Spec.uCentre_diag a, ?_,
    Spec.sum_uCentre_row a ha h0 (by omega), Spec.sum_uCentre_col a ha h0 (by omega), ?_⟩
  · intro i j h
    rw [Spec.uCentre, if_neg h]
  · rw [uCentered_symm (by omega) _ (Spec.uCentre_symm a ha)]
    congr 1
    funext i j
    by_cases h : i = j
    · subst h; rw [Spec.uCentre_diag, Spec.uCentre_diag]
    · rw [Spec.uCentre.eq_1 (Spec.uCentre a), if_neg h]
      simp only [Spec.sum_uCentre_row a ha h0 (show 2 < n by omega),
        Spec.sum_uCentre_col a ha h0 (show 2 < n by omega)]
      simp

/-- C22: the diagonal is zero for every size and every contents, also non-finite ones. -/
theorem C22_diagonal (a : FMat n) (i : Fin n) : uCentered a i i = .fin 0 := by
  simp [uCentered]

/-- C22: for two observations every off-diagonal entry is NaN (for `n ≤ 1` there is none). -/
theorem C22_two_observations (a : Fin 2 → Fin 2 → ℝ) (i j : Fin 2) (h : i ≠ j) :
    uCentered (FMat.ofReal a) i j = .nan := by
  unfold uCentered
  rw [sums_ofReal]
  simp only [if_neg h, Nat.cast_ofNat, sub_self, mul_zero, FP.fin_div', if_true, FMat.ofReal]
  have hsum : ∑ i, ∑ j, a i j = (∑ l, a j l) + ∑ l, a i l := by
    rw [Fin.sum_univ_two]
    fin_cases i <;> fin_cases j <;> (simp at h ⊢; try ring)
  rw [hsum]
  generalize (∑ l, a i l) = r
  generalize (∑ l, a j l) = s
  unfold FP.infOfSign
  rcases lt_trichotomy r 0 with hr | hr | hr <;> rcases lt_trichotomy s 0 with hs | hs | hs
  · have h1 : s + r < 0 := by linarith
    rw [if_neg hs.ne, if_neg (not_lt.2 hs.le), if_neg hr.ne, if_neg (not_lt.2 hr.le),
      if_neg h1.ne, if_neg (not_lt.2 h1.le)]
    rfl
  · rw [if_pos hs]; exact FP.nan_add _
  · rw [if_neg hs.ne', if_pos hs, if_neg hr.ne, if_neg (not_lt.2 hr.le)]
    exact FP.nan_add _
  · rw [if_pos hr, FP.sub_nan]; exact FP.nan_add _
  · rw [if_pos hr, FP.sub_nan]; exact FP.nan_add _
  · rw [if_pos hr, FP.sub_nan]; exact FP.nan_add _
  · rw [if_neg hs.ne, if_neg (not_lt.2 hs.le), if_neg hr.ne', if_pos hr]
    exact FP.nan_add _
  · rw [if_pos hs]; exact FP.nan_add _
  · have h1 : 0 < s + r := by linarith
    rw [if_neg hs.ne', if_pos hs, if_neg hr.ne', if_pos hr, if_neg h1.ne', if_pos h1]
    rfl

/-- A hollow symmetric matrix as in C22. -/
example : (∀ i j : Fin 3, (![![0, 1, 4], ![1, 0, 2], ![4, 2, 0]] i j : ℝ)
    = ![![0, 1, 4], ![1, 0, 2], ![4, 2, 0]] j i) ∧
    ∀ i : Fin 3, (![![0, 1, 4], ![1, 0, 2], ![4, 2, 0]] i i : ℝ) = 0 := by
  constructor
  · intro i j; fin_cases i <;> fin_cases j <;> rfl
  · intro i; fin_cases i <;> rfl

/-! ### C24 -/

/-- C24: for `n > 3`, `u_product` is an inner product on real matrices: there is a symmetric,
bilinear, positive definite form whose values it returns. -/
theorem C24_inner_product (hn : 3 < n) :
    ∃ B : (Fin n → Fin n → ℝ) → (Fin n → Fin n → ℝ) → ℝ,
      (∀ a b, uProduct (FMat.ofReal a) (FMat.ofReal b) = .fin (B a b)) ∧
      (∀ a b, B a b = (∑ i, ∑ j, a i j * b i j) / (n * (n - 3))) ∧
      (∀ a b, B a b = B b a) ∧
      (∀ a b c, B (a + b) c = B a c + B b c) ∧
      (∀ (t : ℝ) a b, B (t • a) b = t * B a b) ∧
      (∀ a, 0 ≤ B a a) ∧
      (∀ a, B a a = 0 ↔ a = 0) ∧
      (∀ a b, B a b ^ 2 ≤ B a a * B b b) :=
  ⟨uIp, uProduct_eq_uIp hn, fun _ _ => rfl, uIp_comm, uIp_add_left, uIp_smul_left,
    uIp_self_nonneg hn, uIp_self_eq_zero hn, uIp_cauchy hn⟩

/-- C24: for `n = 3` the result is never a finite number. -/
theorem C24_three_observations (a b : Fin 3 → Fin 3 → ℝ) (r : ℝ) :
    uProduct (FMat.ofReal a) (FMat.ofReal b) ≠ .fin r := by
  unfold uProduct FMat.ofReal
  simp only [FP.fin_mul, FP.fin_sum]
  have : ((3 : ℕ) : ℝ) * (((3 : ℕ) : ℝ) - 3) = 0 := by norm_num
  rw [this, FP.fin_div', if_pos rfl]
  unfold FP.infOfSign
  split_ifs <;> simp

/-- C24: for `n = 1, 2` the "norm" is negative or zero: the restriction to `n > 3` is needed. -/
theorem C24_one_two_observations (hn : n = 1 ∨ n = 2) (a : Fin n → Fin n → ℝ) :
    uProduct (FMat.ofReal a) (FMat.ofReal a) = .fin (-(∑ i, ∑ j, a i j ^ 2) / 2) := by
  unfold uProduct FMat.ofReal
  simp only [FP.fin_mul, FP.fin_sum]
  have : (n : ℝ) * ((n : ℝ) - 3) = -2 := by rcases hn with rfl | rfl <;> norm_num
  rw [this, FP.fin_div _ (by norm_num)]
  simp only [sq]
  congr 1
  ring

/-! ### C25 -/

/-- C25: `u_projection(c)` is the linear orthogonal projection on the span of `c` and
`u_complementary_projection(c)` its complement, also when `<c, c> = 0`. -/
theorem C25_projections (hn : 3 < n) (c : Fin n → Fin n → ℝ) :
    ∃ P Q : (Fin n → Fin n → ℝ) → (Fin n → Fin n → ℝ),
      (∀ a, uProjection (FMat.ofReal c) (FMat.ofReal a) = FMat.ofReal (P a)) ∧
      (∀ a, uComplementaryProjection (FMat.ofReal c) (FMat.ofReal a) = FMat.ofReal (Q a)) ∧
      -- linear, range in the span, fixes `c`, idempotent
      (∀ a b, P (a + b) = P a + P b) ∧ (∀ (t : ℝ) a, P (t • a) = t • P a) ∧
      (∀ a, ∃ t : ℝ, P a = t • c) ∧ P c = c ∧ (∀ a, P (P a) = P a) ∧
      -- the complement: the parts add up, it is orthogonal to `c`, idempotent
      (∀ a, P a + Q a = a) ∧ (∀ a, Q (Q a) = Q a) ∧
      (∀ a, uProduct (FMat.ofReal (Q a)) (FMat.ofReal c) = .fin 0) ∧
      (∀ a, uProduct (FMat.ofReal (Q a)) (FMat.ofReal (P a)) = .fin 0) := by
  refine ⟨projFun c, fun a => a - projFun c a, uProjection_ofReal hn c,
    uComplementary_ofReal hn c, projFun_add c, projFun_smul c, projFun_span c,
    projFun_self hn c, projFun_idem hn c, fun a => by simp, compl_idem hn c, ?_, ?_⟩
  · intro a
    rw [uProduct_eq_uIp hn, compl_orth hn]
  · intro a
    obtain ⟨t, ht⟩ := projFun_span c a
    have h := compl_orth hn c a
    rw [uProduct_eq_uIp hn]
    simp only
    generalize a - projFun c a = d at h
    rw [ht, uIp_smul_right, h, mul_zero]

/-- C25 applies, for instance, to a non-zero and to the zero direction. -/
example := C25_projections (n := 5) (by norm_num) (fun i j => (i : ℝ) - j)
example := C25_projections (n := 4) (by norm_num) 0

end Dcor.Props

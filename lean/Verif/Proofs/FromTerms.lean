/-
Algebra: the formulas in terms of row sums equal the textbook definitions.
-/
import Verif.Spec.Dcov
import Verif.Model.Internals
import Verif.Model.Avl
import Verif.Proofs.Loops
import Mathlib.Tactic.FieldSimp
import Mathlib.Tactic.Ring
import Mathlib.Tactic.Linarith
import Mathlib.Algebra.BigOperators.Field

namespace Dcor

open Finset

variable {n : ℕ}

/-- Symmetric matrix. -/
def Symm (a : Fin n → Fin n → ℝ) : Prop := ∀ i j, a i j = a j i

namespace Spec

/-- Adding row and column effects does not change the product with a centred matrix. -/
theorem sum_effects_mul (f M : Fin n → Fin n → ℝ) (u v : Fin n → ℝ) (c : ℝ)
    (hr : ∀ i, ∑ j, M i j = 0) (hc : ∀ j, ∑ i, M i j = 0) :
    ∑ i, ∑ j, (f i j - u i - v j + c) * M i j = ∑ i, ∑ j, f i j * M i j := by
  have h1 : ∀ i j, (f i j - u i - v j + c) * M i j
      = f i j * M i j + (c - u i) * M i j - v j * M i j := by intros; ring
  have h2 : ∑ i, ∑ j, v j * M i j = 0 := by
    rw [sum_comm]
    simp [← mul_sum, hc]
  simp only [h1, sum_add_distrib, sum_sub_distrib, ← mul_sum, hr, h2]
  simp

theorem sum_centre_row (a : Fin n → Fin n → ℝ) (i : Fin n) : ∑ j, centre a i j = 0 := by
  have hn : (n : ℝ) ≠ 0 := by have := i.pos; positivity
  unfold centre
  simp only [sum_add_distrib, sum_sub_distrib, sum_const, card_univ, Fintype.card_fin,
    nsmul_eq_mul, ← sum_div]
  rw [sum_comm]
  field_simp
  ring

theorem sum_centre_col (a : Fin n → Fin n → ℝ) (j : Fin n) : ∑ i, centre a i j = 0 := by
  have hn : (n : ℝ) ≠ 0 := by have := j.pos; positivity
  unfold centre
  simp only [sum_add_distrib, sum_sub_distrib, sum_const, card_univ, Fintype.card_fin,
    nsmul_eq_mul, ← sum_div]
  field_simp
  ring

/-- The squared distance covariance in terms of sums (the formula used by the code). -/
theorem dcovSqr_eq_terms (a b : Fin n → Fin n → ℝ) (ha : Symm a) (hb : Symm b) (hn : 0 < n) :
    dcovSqr a b = (∑ i, ∑ j, a i j * b i j) / n ^ 2
      - 2 * (∑ i, (∑ j, a i j) * (∑ j, b i j)) / n ^ 3
      + (∑ i, ∑ j, a i j) * (∑ i, ∑ j, b i j) / n ^ 4 := by
  have hn' : (n : ℝ) ≠ 0 := by positivity
  unfold dcovSqr
  have h1 : ∑ i, ∑ j, centre a i j * centre b i j = ∑ i, ∑ j, a i j * centre b i j := by
    conv_lhs => simp only [centre.eq_1 a]
    exact sum_effects_mul a _ _ _ _ (sum_centre_row b) (sum_centre_col b)
  have hcol : ∀ (m : Fin n → Fin n → ℝ), Symm m → ∀ j, ∑ k, m k j = ∑ k, m j k :=
    fun m hm j => sum_congr rfl fun k _ => hm k j
  have h2 : ∑ i, ∑ j, a i j * (∑ k, b k j) = ∑ i, (∑ j, a i j) * (∑ j, b i j) := by
    rw [sum_comm]
    apply sum_congr rfl
    intro j _
    rw [← sum_mul, hcol a ha, hcol b hb]
  have h3 : ∀ i j, a i j * centre b i j = a i j * b i j - a i j * (∑ k, b i k) / n
      - a i j * (∑ k, b k j) / n + a i j * (∑ k, ∑ l, b k l) / n ^ 2 := by
    intro i j; unfold centre; ring
  rw [h1]
  simp only [h3, sum_add_distrib, sum_sub_distrib, ← sum_div, h2, ← sum_mul]
  field_simp
  ring

theorem sum_uCentre_row (a : Fin n → Fin n → ℝ) (ha : Symm a) (h0 : ∀ i, a i i = 0) (hn : 2 < n)
    (i : Fin n) : ∑ j, uCentre a i j = 0 := by
  have h2 : (n : ℝ) - 2 ≠ 0 := by
    have : (2 : ℝ) < n := by exact_mod_cast hn
    intro h; linarith
  have h1 : (n : ℝ) - 1 ≠ 0 := by
    have : (2 : ℝ) < n := by exact_mod_cast hn
    intro h; linarith
  have hcol : ∀ j, ∑ k, a k j = ∑ k, a j k := fun j => sum_congr rfl fun k _ => ha k j
  have hs : ∑ j, uCentre a i j = ∑ j, (a i j - (∑ k, a i k) / (n - 2) - (∑ k, a j k) / (n - 2)
    + (∑ k, ∑ l, a k l) / ((n - 1) * (n - 2)))
    - (a i i - (∑ k, a i k) / (n - 2) - (∑ k, a i k) / (n - 2)
    + (∑ k, ∑ l, a k l) / ((n - 1) * (n - 2))) := by
    rw [eq_sub_iff_add_eq, ← Finset.add_sum_erase univ _ (mem_univ i),
      ← Finset.add_sum_erase univ (fun j => a i j - (∑ k, a i k) / (n - 2)
        - (∑ k, a j k) / (n - 2) + (∑ k, ∑ l, a k l) / ((n - 1) * (n - 2))) (mem_univ i)]
    have : ∑ j ∈ univ.erase i, uCentre a i j = ∑ j ∈ univ.erase i, (a i j
        - (∑ k, a i k) / (n - 2) - (∑ k, a j k) / (n - 2)
        + (∑ k, ∑ l, a k l) / ((n - 1) * (n - 2))) := by
      apply sum_congr rfl
      intro j hj
      unfold uCentre
      rw [if_neg (fun h => (ne_of_mem_erase hj) h.symm), hcol]
    rw [this]
    simp only [uCentre, if_true]
    ring
  rw [hs]
  simp only [sum_add_distrib, sum_sub_distrib, sum_const, card_univ, Fintype.card_fin,
    nsmul_eq_mul, ← sum_div, h0]
  field_simp
  ring

theorem uCentre_symm (a : Fin n → Fin n → ℝ) (ha : Symm a) : Symm (uCentre a) := by
  intro i j
  unfold uCentre
  have hcol : ∀ j, ∑ k, a k j = ∑ k, a j k := fun j => sum_congr rfl fun k _ => ha k j
  by_cases h : i = j
  · subst h; rfl
  · rw [if_neg h, if_neg (fun e => h e.symm), hcol, hcol, ha i j]
    ring

theorem centre_symm (a : Fin n → Fin n → ℝ) (ha : Symm a) : Symm (centre a) := by
  intro i j
  unfold centre
  have hcol : ∀ j, ∑ k, a k j = ∑ k, a j k := fun j => sum_congr rfl fun k _ => ha k j
  rw [hcol, hcol, ha i j]
  ring

theorem sum_uCentre_col (a : Fin n → Fin n → ℝ) (ha : Symm a) (h0 : ∀ i, a i i = 0) (hn : 2 < n)
    (j : Fin n) : ∑ i, uCentre a i j = 0 := by
  rw [← sum_uCentre_row a ha h0 hn j]
  exact sum_congr rfl fun i _ => uCentre_symm a ha i j

/-- With a zero diagonal the sum over `i ≠ j` is the full sum. -/
theorem uInner_eq (a b : Fin n → Fin n → ℝ) (h0 : ∀ i, a i i * b i i = 0) :
    uInner a b = (∑ i, ∑ j, a i j * b i j) / (n * (n - 3)) := by
  unfold uInner
  congr 1
  apply sum_congr rfl
  intro i _
  rw [sum_filter]
  apply sum_congr rfl
  intro j _
  split_ifs with h
  · rfl
  · have : j = i := not_not.1 h
    rw [this, h0]

theorem uCentre_diag (a : Fin n → Fin n → ℝ) (i : Fin n) : uCentre a i i = 0 := by
  simp [uCentre]

/-- The bias-corrected estimator in terms of sums. -/
theorem uDcovSqr_eq_terms (a b : Fin n → Fin n → ℝ) (ha : Symm a) (hb : Symm b)
    (ha0 : ∀ i, a i i = 0) (hb0 : ∀ i, b i i = 0) (hn : 3 < n) :
    uDcovSqr a b = (∑ i, ∑ j, a i j * b i j) / (n * (n - 3))
      - 2 * (∑ i, (∑ j, a i j) * (∑ j, b i j)) / (n * ((n - 2) * (n - 3)))
      + (∑ i, ∑ j, a i j) * (∑ i, ∑ j, b i j) / (n * ((n - 1) * (n - 2) * (n - 3))) := by
  have hnR : (3 : ℝ) < n := by exact_mod_cast hn
  have h0 : (n : ℝ) ≠ 0 := by intro h; linarith
  have h1 : (n : ℝ) - 1 ≠ 0 := by intro h; linarith
  have h2 : (n : ℝ) - 2 ≠ 0 := by intro h; linarith
  have h3 : (n : ℝ) - 3 ≠ 0 := by intro h; linarith
  unfold uDcovSqr
  rw [uInner_eq _ _ (fun i => by rw [uCentre_diag, zero_mul])]
  have hrow := sum_uCentre_row b hb hb0 (by omega)
  have hcolz := sum_uCentre_col b hb hb0 (by omega)
  have e1 : ∑ i, ∑ j, uCentre a i j * uCentre b i j = ∑ i, ∑ j, a i j * uCentre b i j := by
    have : ∀ i j, uCentre a i j * uCentre b i j
        = (a i j - (∑ k, a i k) / (n - 2) - (∑ k, a k j) / (n - 2)
            + (∑ k, ∑ l, a k l) / ((n - 1) * (n - 2))) * uCentre b i j := by
      intro i j
      by_cases h : i = j
      · subst h; rw [uCentre_diag, uCentre_diag]; ring
      · conv_lhs => rw [uCentre, if_neg h]
    simp only [this]
    exact sum_effects_mul a _ _ _ _ hrow hcolz
  have hcol : ∀ (m : Fin n → Fin n → ℝ), Symm m → ∀ j, ∑ k, m k j = ∑ k, m j k :=
    fun m hm j => sum_congr rfl fun k _ => hm k j
  have e2 : ∑ i, ∑ j, a i j * (∑ k, b k j) = ∑ i, (∑ j, a i j) * (∑ j, b i j) := by
    rw [sum_comm]
    apply sum_congr rfl
    intro j _
    rw [← sum_mul, hcol a ha, hcol b hb]
  have e3 : ∀ i j, a i j * uCentre b i j = a i j * b i j - a i j * (∑ k, b i k) / (n - 2)
      - a i j * (∑ k, b k j) / (n - 2)
      + a i j * (∑ k, ∑ l, b k l) / ((n - 1) * (n - 2)) := by
    intro i j
    by_cases h : i = j
    · subst h; rw [uCentre_diag, ha0]; ring
    · rw [uCentre, if_neg h]; ring
  rw [e1]
  simp only [e3, sum_add_distrib, sum_sub_distrib, ← sum_div, e2, ← sum_mul]
  field_simp
  ring

theorem dist_nonneg {p : ℕ} (α : ℝ) (u v : Fin p → ℝ) : 0 ≤ dist α u v :=
  Real.rpow_nonneg (Real.sqrt_nonneg _) _

theorem dist_symm {p : ℕ} (α : ℝ) (u v : Fin p → ℝ) : dist α u v = dist α v u := by
  unfold dist
  congr 2
  exact sum_congr rfl fun c _ => by ring

theorem dist_self {p : ℕ} {α : ℝ} (hα : α ≠ 0) (u : Fin p → ℝ) : dist α u u = 0 := by
  simp [dist, hα]

theorem distMat_symm {p : ℕ} (α : ℝ) (X : Fin n → Fin p → ℝ) : Symm (distMat α X) :=
  fun i j => dist_symm α (X i) (X j)

theorem distMat_diag {p : ℕ} {α : ℝ} (hα : α ≠ 0) (X : Fin n → Fin p → ℝ) (i : Fin n) :
    distMat α X i i = 0 := dist_self hα (X i)

theorem dist_eq_rpow {p : ℕ} (α : ℝ) (u v : Fin p → ℝ) :
    dist α u v = (∑ c, (u c - v c) ^ 2) ^ (α / 2) := by
  unfold dist
  rw [Real.sqrt_eq_rpow, ← Real.rpow_mul (sum_nonneg fun c _ => sq_nonneg _)]
  congr 1
  ring

theorem dist_one_scalar (u v : ℝ) : dist 1 (fun _ : Fin 1 => u) (fun _ => v) = |u - v| := by
  simp [dist, Real.sqrt_sq_eq_abs]

end Spec

/-- Terms that represent two matrices, up to a common reordering of the observations. -/
structure CoreRep (c : CoreTerms ℝ n) (a b : Fin n → Fin n → ℝ) : Prop where
  mean : c.meanProd = ∑ i, ∑ j, a i j * b i j
  axes : ∃ σ : Equiv.Perm (Fin n), (∀ i, c.aAxis i = ∑ j, a (σ i) j) ∧
    (∀ i, c.bAxis i = ∑ j, b (σ i) j)
  aTot : c.aTotal = ∑ i, ∑ j, a i j
  bTot : c.bTotal = ∑ i, ∑ j, b i j

theorem npDiv_ok (k : NumKind) (a : ℝ) {d : ℤ} (h : d ≠ 0) :
    npDiv k (.fin a) d = .ok (.fin (a / (d : ℝ))) := by
  have h' : (d : ℝ) ≠ 0 := by exact_mod_cast h
  simp [npDiv, h, FP.fin_div _ h']

theorem dcovFromTerms_biased (k1 k2 k3 : NumKind) (hn : 0 < n) (mp at' bt : ℝ)
    (aa ba : Fin n → ℝ) :
    dcovFromTerms k1 k2 k3 mp aa at' ba bt false
      = .ok (.fin (mp / n ^ 2 - 2 * (∑ i, aa i * ba i) / n ^ 3 + at' * bt / n ^ 4)) := by
  have h0 : (n : ℤ) ≠ 0 := by omega
  have h0' : (n : ℝ) ≠ 0 := by positivity
  unfold dcovFromTerms
  simp only [npDiv_ok _ _ h0, Except.ok_bind', Int.cast_natCast, FP.fin_mul, FP.fin_div _ h0',
    FP.fin_sum, Bool.false_eq_true, if_false, npDiv_ok _ _ (pow_ne_zero 2 h0),
    npDiv_ok _ _ (pow_ne_zero 3 h0), Except.pure_eq, FP.fin_sub, FP.fin_add]
  congr 2
  push_cast
  have : ∑ i, aa i / (n : ℝ) * ba i = (∑ i, aa i * ba i) / n := by
    rw [sum_div]; exact sum_congr rfl fun i _ => by ring
  rw [this]
  field_simp

theorem dcovFromTerms_unbiased (k1 k2 k3 : NumKind) (hn : 3 < n) (mp at' bt : ℝ)
    (aa ba : Fin n → ℝ) :
    dcovFromTerms k1 k2 k3 mp aa at' ba bt true
      = .ok (.fin (mp / (n * (n - 3)) - 2 * (∑ i, aa i * ba i) / (n * ((n - 2) * (n - 3)))
          + at' * bt / (n * ((n - 1) * (n - 2) * (n - 3))))) := by
  have h0 : (n : ℤ) ≠ 0 := by omega
  have h1 : (n : ℤ) - 1 ≠ 0 := by omega
  have h2 : (n : ℤ) - 2 ≠ 0 := by omega
  have h3 : (n : ℤ) - 3 ≠ 0 := by omega
  have h0' : (n : ℝ) ≠ 0 := by positivity
  have hnR : (3 : ℝ) < n := by exact_mod_cast hn
  have h1' : (n : ℝ) - 1 ≠ 0 := by intro h; linarith
  have h2' : (n : ℝ) - 2 ≠ 0 := by intro h; linarith
  have h3' : (n : ℝ) - 3 ≠ 0 := by intro h; linarith
  unfold dcovFromTerms
  simp only [npDiv_ok _ _ h0, Except.ok_bind', Int.cast_natCast, FP.fin_mul, FP.fin_div _ h0',
    FP.fin_sum, if_true, npDiv_ok _ _ h3, npDiv_ok _ _ (mul_ne_zero h2 h3),
    npDiv_ok _ _ (mul_ne_zero (mul_ne_zero h1 h2) h3), Except.pure_eq, FP.fin_sub, FP.fin_add]
  congr 2
  push_cast
  have : ∑ i, aa i / (n : ℝ) * ba i = (∑ i, aa i * ba i) / n := by
    rw [sum_div]; exact sum_congr rfl fun i _ => by ring
  rw [this]
  field_simp

theorem CoreRep.axis_prod {c : CoreTerms ℝ n} {a b : Fin n → Fin n → ℝ} (h : CoreRep c a b) :
    ∑ i, c.aAxis i * c.bAxis i = ∑ i, (∑ j, a i j) * (∑ j, b i j) := by
  obtain ⟨σ, h1, h2⟩ := h.axes
  simp only [h1, h2]
  exact Equiv.sum_comp σ (fun i => (∑ j, a i j) * (∑ j, b i j))

theorem CoreRep.axis_prod_aa {c : CoreTerms ℝ n} {a b : Fin n → Fin n → ℝ} (h : CoreRep c a b) :
    ∑ i, c.aAxis i * c.aAxis i = ∑ i, (∑ j, a i j) * (∑ j, a i j) := by
  obtain ⟨σ, h1, h2⟩ := h.axes
  simp only [h1]
  exact Equiv.sum_comp σ (fun i => (∑ j, a i j) * (∑ j, a i j))

theorem CoreRep.axis_prod_bb {c : CoreTerms ℝ n} {a b : Fin n → Fin n → ℝ} (h : CoreRep c a b) :
    ∑ i, c.bAxis i * c.bAxis i = ∑ i, (∑ j, b i j) * (∑ j, b i j) := by
  obtain ⟨σ, h1, h2⟩ := h.axes
  simp only [h2]
  exact Equiv.sum_comp σ (fun i => (∑ j, b i j) * (∑ j, b i j))

end Dcor

/-
The AVL terms are the sums of the definition.
-/
import Verif.Proofs.AvlDyad
import Mathlib.Algebra.Order.Ring.Abs
import Mathlib.Tactic.Abel

namespace Dcor

/-- `+1` above, `-1` otherwise. -/
def sgnLt {R : Type} [One R] [Neg R] {n : ℕ} (q r : Fin n) : R := if q < r then 1 else -1

section ring

variable {R : Type} [CommRing R] {n : ℕ}

/-- Terms written with permutations: `σ` sorts `x`, `ρ` sorts `y`, `τ` sorts `y ∘ σ`. -/
def permTerms (σ ρ τ : Equiv.Perm (Fin n)) (x y : Fin n → R) : CoreTerms R n where
  meanProd := ∑ r, ∑ q, sgnLt q r * sgnLt (τ.symm q) (τ.symm r)
      * ((x (σ r) - x (σ q)) * (y (σ r) - y (σ q)))
  aAxis := fun i => ∑ q, sgnLt q (σ.symm i) * (x i - x (σ q))
  aTotal := ∑ i, ∑ q, sgnLt q (σ.symm i) * (x i - x (σ q))
  bAxis := fun i => ∑ q, sgnLt q (ρ.symm i) * (y i - y (ρ q))
  bTotal := ∑ i, ∑ q, sgnLt q (ρ.symm i) * (y i - y (ρ q))

theorem gammaSpec_rank (τ : Equiv.Perm (Fin n)) (c : Fin n → R) (r : Fin n) :
    gammaSpec (fun i => (((τ.symm i : Fin n) : ℕ) : ℤ) + 1) c r
      = ∑ q, if q < r ∧ τ.symm q < τ.symm r then c q else 0 := by
  unfold gammaSpec
  apply Finset.sum_congr rfl
  intro q _
  have : ((((τ.symm q : Fin n) : ℕ) : ℤ) + 1 < (((τ.symm r : Fin n) : ℕ) : ℤ) + 1)
      ↔ τ.symm q < τ.symm r := by rw [Fin.lt_def]; omega
  simp only [this]

theorem partial_closed (τ : Equiv.Perm (Fin n)) (c : Fin n → R) (r : Fin n) :
    (∑ k, c k) - c r - 2 * (cumsum (fun j => c (τ j)) (τ.symm r) - c (τ (τ.symm r)))
        - 2 * (cumsum c r - c r)
        + 4 * gammaSpec (fun i => (((τ.symm i : Fin n) : ℕ) : ℤ) + 1) c r
    = ∑ q, if q = r then 0 else sgnLt q r * sgnLt (τ.symm q) (τ.symm r) * c q := by
  rw [gammaSpec_rank]
  have h2 : cumsum (fun j => c (τ j)) (τ.symm r) - c (τ (τ.symm r))
      = ∑ q, if τ.symm q < τ.symm r then c q else 0 := by
    have := cumsum_sub_self (fun j => c (τ j)) (τ.symm r)
    rw [this, ← Equiv.sum_comp τ.symm]
    simp
  have h3 : c r = ∑ q, if q = r then c q else 0 := by simp
  rw [h2, cumsum_sub_self]
  conv_lhs => rw [h3]
  rw [Finset.mul_sum, Finset.mul_sum, Finset.mul_sum, ← Finset.sum_sub_distrib,
    ← Finset.sum_sub_distrib, ← Finset.sum_sub_distrib, ← Finset.sum_add_distrib]
  apply Finset.sum_congr rfl
  intro q _
  by_cases hq : q = r
  · subst hq; simp
  · by_cases ha : q < r <;> by_cases hb : τ.symm q < τ.symm r <;>
      simp [hq, ha, hb, sgnLt] <;> ring

/-- `_partial_sum_2d` never fails and computes the signed sum of the other weights. -/
theorem partialSum2d_eq (compiled : Bool) (τ : Equiv.Perm (Fin n)) (c : Fin n → R)
    (ix : Fin n → Fin n) (L : ℕ) (hL : n ≤ 2 ^ L) (s : Fin (2 ^ (L + 1)) → R) :
    partialSum2d compiled (fun i => (((τ.symm i : Fin n) : ℕ) : ℤ) + 1) c ix τ.symm
      (fun k => cumsum c k - c k) (fun k => cumsum (fun j => c (τ j)) k - c (τ k)) (∑ k, c k)
      L s (posSums L) (fun _ => 0)
    = .ok (fun i => ∑ q, if q = ix i then 0 else
        sgnLt q (ix i) * sgnLt (τ.symm q) (τ.symm (ix i)) * c q) := by
  have hy : ∀ i : Fin n, 1 ≤ (((τ.symm i : Fin n) : ℕ) : ℤ) + 1 ∧
      (((τ.symm i : Fin n) : ℕ) : ℤ) + 1 ≤ 2 ^ L := by
    intro i
    have h1 : ((τ.symm i : Fin n) : ℕ) < n := (τ.symm i).2
    have h2 : (n : ℤ) ≤ 2 ^ L := by exact_mod_cast hL
    constructor <;> omega
  have h0 : partialSum2d compiled (fun i => (((τ.symm i : Fin n) : ℕ) : ℤ) + 1) c ix τ.symm
      (fun k => cumsum c k - c k) (fun k => cumsum (fun j => c (τ j)) k - c (τ k)) (∑ k, c k)
      L s (posSums L) (fun _ => 0)
      = .ok (fun i => (∑ k, c k) - c (ix i)
        - 2 * (cumsum (fun j => c (τ j)) (τ.symm (ix i)) - c (τ (τ.symm (ix i))))
        - 2 * (cumsum c (ix i) - c (ix i))
        + 4 * gammaSpec (fun i => (((τ.symm i : Fin n) : ℕ) : ℤ) + 1) c (ix i)) := by
    unfold partialSum2d
    cases compiled
    · simp [dyadUpdate_eq _ c _ hy s]
    · simp [dyadUpdateCompiled_eq _ c hy s]
  rw [h0]
  congr 1
  funext i
  exact partial_closed τ c (ix i)

theorem axis_eq (σ : Equiv.Perm (Fin n)) (x : Fin n → R) (i : Fin n) :
    (∑ i, x i) + (2 * (((σ.symm i : Fin n) : ℕ) : R) - (n : R)) * x i
      - 2 * (cumsum (fun k => x (σ k)) (σ.symm i) - x (σ (σ.symm i)))
    = ∑ q, sgnLt q (σ.symm i) * (x i - x (σ q)) := by
  have h1 := cumsum_sub_self (fun k => x (σ k)) (σ.symm i)
  have h2 : (((σ.symm i : Fin n) : ℕ) : R) = ∑ q : Fin n, if q < σ.symm i then 1 else 0 := by
    rw [Finset.sum_boole]
    have : (Finset.univ.filter fun q : Fin n => q < σ.symm i) = Finset.Iio (σ.symm i) := by
      ext; simp
    rw [this, Fin.card_Iio]
  have h3 : (n : R) = ∑ _q : Fin n, (1 : R) := by simp
  rw [h1, h2, h3, ← Equiv.sum_comp σ x, Finset.mul_sum, ← Finset.sum_sub_distrib,
    Finset.sum_mul, ← Finset.sum_add_distrib, Finset.mul_sum, ← Finset.sum_sub_distrib]
  apply Finset.sum_congr rfl
  intro q _
  unfold sgnLt
  split_ifs <;> ring

theorem total_eq (σ : Equiv.Perm (Fin n)) (x : Fin n → R) :
    2 * (∑ i, (((σ.symm i : Fin n) : ℕ) : R) * x i)
      - 2 * ∑ i, (cumsum (fun k => x (σ k)) (σ.symm i) - x (σ (σ.symm i)))
    = ∑ i, ∑ q, sgnLt q (σ.symm i) * (x i - x (σ q)) := by
  simp only [← axis_eq]
  rw [Finset.sum_sub_distrib (f := fun i => (∑ i, x i)
    + (2 * (((σ.symm i : Fin n) : ℕ) : R) - (n : R)) * x i), Finset.sum_add_distrib]
  simp only [sub_mul, Finset.sum_sub_distrib, Finset.sum_const, Finset.card_univ,
    Fintype.card_fin, nsmul_eq_mul, mul_assoc, ← Finset.mul_sum]
  ring

/-- The AVL implementation never fails for `n > 3` and returns `permTerms`, in any ring, for
both inner loops and any `argsort`. -/
theorem avlTermsImpl_eq_permTerms (compiled : Bool)
    (argsort : (Fin n → R) → Equiv.Perm (Fin n)) (x y : Fin n → R) (hn : 3 < n) :
    avlTermsImpl compiled argsort x y
      = .ok (permTerms (argsort x) (argsort y) (argsort fun i => y (argsort x i)) x y) := by
  have hL : n ≤ 2 ^ Nat.clog 2 n := Nat.le_pow_clog (by norm_num) n
  unfold avlTermsImpl
  simp only [gt_iff_lt, hn, not_true_eq_false, if_false, getImplArgs]
  generalize hσ : argsort x = σ
  generalize hτ : (argsort fun i => y (σ i)) = τ
  generalize hρ : argsort y = ρ
  have sc : ∀ (π : Equiv.Perm (Fin n)) (b : Fin n → Fin n), scatter b π id = π.symm := by
    intro π b; funext i; rw [scatter_perm]; rfl
  simp only [sc]
  have hp : ∀ c : Fin n → R, _ := fun c => partialSum2d_eq compiled τ c σ.symm (Nat.clog 2 n) hL
    (fun _ => 0)
  simp only [hp, Except.ok_bind', Except.pure_eq]
  congr 1
  unfold permTerms
  congr 1
  · -- step 8
    rw [← Equiv.sum_comp σ]
    apply Finset.sum_congr rfl
    intro r _
    simp only [Equiv.symm_apply_apply, Matrix.cons_val_zero, Matrix.cons_val_one, Matrix.cons_val]
    rw [Finset.mul_sum, Finset.mul_sum, Finset.mul_sum, ← Finset.sum_add_distrib,
      ← Finset.sum_sub_distrib, ← Finset.sum_sub_distrib]
    apply Finset.sum_congr rfl
    intro q _
    by_cases hq : q = r
    · subst hq; simp
    · simp only [hq, if_false]; ring
  · funext i; exact axis_eq σ x i
  · exact total_eq σ x
  · funext i; exact axis_eq ρ y i
  · exact total_eq ρ y

end ring

section ordered

variable {R : Type} [CommRing R] [LinearOrder R] [IsStrictOrderedRing R] {n : ℕ}

theorem sgn_mul_abs (v : Fin n → R) (hv : Monotone v) (q r : Fin n) :
    sgnLt q r * (v r - v q) = |v r - v q| := by
  unfold sgnLt
  split_ifs with h
  · rw [abs_of_nonneg (sub_nonneg.2 (hv h.le)), one_mul]
  · rw [abs_of_nonpos (sub_nonpos.2 (hv (not_lt.1 h)))]; ring

/-- With sorting permutations `permTerms` are the sums over absolute differences. -/
theorem permTerms_eq (σ ρ τ : Equiv.Perm (Fin n)) (x y : Fin n → R)
    (hσ : Monotone fun i => x (σ i)) (hρ : Monotone fun i => y (ρ i))
    (hτ : Monotone fun i => y (σ (τ i))) :
    permTerms σ ρ τ x y =
      { meanProd := ∑ i, ∑ j, |x i - x j| * |y i - y j|
        aAxis := fun i => ∑ j, |x i - x j|
        aTotal := ∑ i, ∑ j, |x i - x j|
        bAxis := fun i => ∑ j, |y i - y j|
        bTotal := ∑ i, ∑ j, |y i - y j| } := by
  have hx : ∀ i, ∑ q, sgnLt q (σ.symm i) * (x i - x (σ q)) = ∑ j, |x i - x j| := by
    intro i
    rw [← Equiv.sum_comp σ (fun j => |x i - x j|)]
    apply Finset.sum_congr rfl
    intro q _
    have := sgn_mul_abs _ hσ q (σ.symm i)
    simpa using this
  have hy : ∀ i, ∑ q, sgnLt q (ρ.symm i) * (y i - y (ρ q)) = ∑ j, |y i - y j| := by
    intro i
    rw [← Equiv.sum_comp ρ (fun j => |y i - y j|)]
    apply Finset.sum_congr rfl
    intro q _
    have := sgn_mul_abs _ hρ q (ρ.symm i)
    simpa using this
  unfold permTerms
  simp only [hx, hy]
  congr 1
  rw [← Equiv.sum_comp σ (fun i => ∑ j, |x i - x j| * |y i - y j|)]
  apply Finset.sum_congr rfl
  intro r _
  rw [← Equiv.sum_comp σ (fun j => |x (σ r) - x j| * |y (σ r) - y j|)]
  apply Finset.sum_congr rfl
  intro q _
  have h1 := sgn_mul_abs _ hσ q r
  have h2 := sgn_mul_abs _ hτ (τ.symm q) (τ.symm r)
  simp only [Equiv.apply_symm_apply] at h1 h2
  rw [← h1, ← h2]
  ring

end ordered

end Dcor

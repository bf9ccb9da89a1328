/-
The bias-corrected statistics are U-statistics: leave-one-out averages, and unbiasedness under sampling
with replacement.
-/
import Verif.Proofs.EnergySpec
import Mathlib.Algebra.BigOperators.Fin
import Mathlib.Logic.Equiv.Fin.Basic

namespace Dcor.Spec

open Finset

variable {n m p q N : ℕ}

/-! ### Leaving one observation out -/

/-- The matrix without row and column `i`. -/
def dropMat (a : RMat (n + 1)) (i : Fin (n + 1)) : RMat n := fun j k => a (i.succAbove j) (i.succAbove k)

theorem sum_succAbove (g : Fin (n + 1) → ℝ) (i : Fin (n + 1)) :
    ∑ j, g (i.succAbove j) = ∑ j, g j - g i := by
  rw [Fin.sum_univ_succAbove g i]
  ring

theorem sum_dropMat_row (a : RMat (n + 1)) (i : Fin (n + 1)) (j : Fin n) :
    ∑ k, dropMat a i j k = ∑ k, a (i.succAbove j) k - a (i.succAbove j) i :=
  sum_succAbove (fun k => a (i.succAbove j) k) i

theorem sum_dropMat_mul (a b : RMat (n + 1)) (ha : Symm a) (hb : Symm b) (ha0 : ∀ i, a i i = 0) :
    ∑ i, ∑ j, ∑ k, dropMat a i j k * dropMat b i j k = ((n : ℝ) - 1) * ∑ j, ∑ k, a j k * b j k := by
  have h : ∀ i, ∑ j, ∑ k, dropMat a i j k * dropMat b i j k
      = ∑ j, ∑ k, a j k * b j k - 2 * ∑ k, a i k * b i k := by
    intro i
    have h1 : ∀ j, ∑ k, dropMat a i j k * dropMat b i j k
        = ∑ k, a (i.succAbove j) k * b (i.succAbove j) k - a (i.succAbove j) i * b (i.succAbove j) i :=
      fun j => sum_succAbove (fun k => a (i.succAbove j) k * b (i.succAbove j) k) i
    rw [sum_congr rfl fun j _ => h1 j]
    have h2 := sum_succAbove (fun j => ∑ k, a j k * b j k - a j i * b j i) i
    have h3 : ∑ j, a j i * b j i = ∑ j, a i j * b i j :=
      sum_congr rfl fun j _ => by rw [ha j i, hb j i]
    rw [h2, sum_sub_distrib, ha0, h3]
    ring
  rw [sum_congr rfl fun i _ => h i, sum_sub_distrib, ← mul_sum, sum_const, card_univ, Fintype.card_fin,
    nsmul_eq_mul]
  push_cast
  ring

theorem sum_dropMat_rows (a b : RMat (n + 1)) (ha0 : ∀ i, a i i = 0) (hb0 : ∀ i, b i i = 0) :
    ∑ i, ∑ j, (∑ k, dropMat a i j k) * (∑ k, dropMat b i j k)
      = ((n : ℝ) - 2) * (∑ i, (∑ j, a i j) * (∑ j, b i j)) + ∑ i, ∑ j, a i j * b i j := by
  have h : ∀ i, ∑ j, (∑ k, dropMat a i j k) * (∑ k, dropMat b i j k)
      = ∑ j, (∑ k, a j k - a j i) * (∑ k, b j k - b j i) - (∑ k, a i k) * (∑ k, b i k) := by
    intro i
    simp only [sum_dropMat_row]
    rw [sum_succAbove (fun j => (∑ k, a j k - a j i) * (∑ k, b j k - b j i)) i, ha0, hb0, sub_zero,
      sub_zero]
  have h2 : ∑ i, ∑ j, (∑ k, a j k - a j i) * (∑ k, b j k - b j i)
      = ((n : ℝ) + 1) * (∑ j, (∑ k, a j k) * (∑ k, b j k)) - 2 * (∑ j, (∑ k, a j k) * (∑ k, b j k))
        + ∑ i, ∑ j, a i j * b i j := by
    rw [sum_comm]
    have : ∀ j, ∑ i, (∑ k, a j k - a j i) * (∑ k, b j k - b j i)
        = ((n : ℝ) + 1) * ((∑ k, a j k) * (∑ k, b j k)) - 2 * ((∑ k, a j k) * (∑ k, b j k))
          + ∑ i, a j i * b j i := by
      intro j
      simp only [sub_mul, mul_sub, sum_sub_distrib, sum_const, card_univ, Fintype.card_fin, nsmul_eq_mul,
        ← mul_sum, ← sum_mul]
      push_cast
      ring
    rw [sum_congr rfl fun j _ => this j, sum_add_distrib, sum_sub_distrib, ← mul_sum, ← mul_sum]
  rw [sum_congr rfl fun i _ => h i, sum_sub_distrib, h2]
  ring

theorem sum_dropMat_all (a : RMat (n + 1)) (ha : Symm a) (ha0 : ∀ i, a i i = 0) (i : Fin (n + 1)) :
    ∑ j, ∑ k, dropMat a i j k = ∑ j, ∑ k, a j k - 2 * ∑ k, a i k := by
  simp only [sum_dropMat_row]
  rw [sum_succAbove (fun j => ∑ k, a j k - a j i) i, sum_sub_distrib, ha0,
    sum_congr rfl fun j _ => ha j i]
  ring

/-- The bias-corrected estimator is the average of its values on the samples without one observation. -/
theorem uDcovSqr_leave_one_out (hn : 3 < n) (a b : RMat (n + 1)) (ha : Symm a) (hb : Symm b)
    (ha0 : ∀ i, a i i = 0) (hb0 : ∀ i, b i i = 0) :
    ∑ i, uDcovSqr (dropMat a i) (dropMat b i) = ((n : ℝ) + 1) * uDcovSqr a b := by
  have hnR : (3 : ℝ) < n := by exact_mod_cast hn
  have h0 : (n : ℝ) ≠ 0 := by intro h; linarith
  have h1 : (n : ℝ) - 1 ≠ 0 := by intro h; linarith
  have h2 : (n : ℝ) - 2 ≠ 0 := by intro h; linarith
  have h3 : (n : ℝ) - 3 ≠ 0 := by intro h; linarith
  have h4 : (n : ℝ) + 1 ≠ 0 := by intro h; linarith
  have e : ∀ i, uDcovSqr (dropMat a i) (dropMat b i) = _ := fun i =>
    uDcovSqr_eq_terms (dropMat a i) (dropMat b i) (fun _ _ => ha _ _) (fun _ _ => hb _ _)
      (fun _ => ha0 _) (fun _ => hb0 _) hn
  rw [sum_congr rfl fun i _ => e i, sum_add_distrib, sum_sub_distrib, ← sum_div, ← sum_div, ← sum_div,
    ← mul_sum, sum_dropMat_mul a b ha hb ha0, sum_dropMat_rows a b ha0 hb0,
    uDcovSqr_eq_terms a b ha hb ha0 hb0 (by omega)]
  have e3 : ∑ i, (∑ j, ∑ k, dropMat a i j k) * (∑ j, ∑ k, dropMat b i j k)
      = ((n : ℝ) - 3) * ((∑ i, ∑ j, a i j) * (∑ i, ∑ j, b i j))
        + 4 * ∑ i, (∑ j, a i j) * (∑ j, b i j) := by
    have : ∀ i, (∑ j, ∑ k, dropMat a i j k) * (∑ j, ∑ k, dropMat b i j k)
        = (∑ i, ∑ j, a i j) * (∑ i, ∑ j, b i j) - 2 * ((∑ i, ∑ j, a i j) * (∑ k, b i k))
          - 2 * ((∑ i, ∑ j, b i j) * (∑ k, a i k)) + 4 * ((∑ k, a i k) * (∑ k, b i k)) := by
      intro i
      rw [sum_dropMat_all a ha ha0, sum_dropMat_all b hb hb0]
      ring
    rw [sum_congr rfl fun i _ => this i, sum_add_distrib, sum_sub_distrib, sum_sub_distrib, sum_const,
      card_univ, Fintype.card_fin, nsmul_eq_mul]
    simp only [← mul_sum]
    push_cast
    ring
  rw [e3]
  push_cast
  have g1 : (n : ℝ) + 1 - 1 = n := by ring
  have g2 : (n : ℝ) + 1 - 2 = n - 1 := by ring
  have g3 : (n : ℝ) + 1 - 3 = n - 2 := by ring
  rw [g1, g2, g3]
  generalize (∑ i, ∑ j, a i j * b i j) = S1
  generalize (∑ i, (∑ j, a i j) * (∑ j, b i j)) = S2
  generalize (∑ i, ∑ j, a i j) * (∑ i, ∑ j, b i j) = S3
  field_simp
  ring

/-! ### Sampling with replacement -/

/-- The matrix of the observations chosen by `f`. -/
def sampleMat (a : RMat N) (f : Fin n → Fin N) : RMat n := fun i j => a (f i) (f j)

theorem sum_fun_succAbove (i : Fin (n + 1)) (G : (Fin n → Fin N) → ℝ) :
    ∑ f : Fin (n + 1) → Fin N, G (fun j => f (i.succAbove j)) = N * ∑ g, G g := by
  rw [← (Fin.insertNthEquiv (fun _ : Fin (n + 1) => Fin N) i).sum_comp, Fintype.sum_prod_type]
  simp

theorem sum_fun_four (G : (Fin 4 → Fin N) → ℝ) :
    ∑ f, G f = ∑ k, ∑ l, ∑ m, ∑ o, G ![k, l, m, o] := by
  have cons : ∀ (r : ℕ) (H : (Fin (r + 1) → Fin N) → ℝ),
      ∑ f, H f = ∑ k, ∑ g : Fin r → Fin N, H (Fin.cons k g) := by
    intro r H
    rw [← (Fin.consEquiv (fun _ : Fin (r + 1) => Fin N)).sum_comp, Fintype.sum_prod_type]
    rfl
  rw [cons]
  refine sum_congr rfl fun k _ => ?_
  rw [cons]
  refine sum_congr rfl fun l _ => ?_
  rw [cons]
  refine sum_congr rfl fun m _ => ?_
  rw [cons]
  refine sum_congr rfl fun o _ => ?_
  rw [Fintype.sum_unique]
  rfl

theorem exists_perm_four {i j k l : Fin 4} (hij : i ≠ j) (hik : i ≠ k) (hil : i ≠ l) (hjk : j ≠ k)
    (hjl : j ≠ l) (hkl : k ≠ l) :
    ∃ σ : Equiv.Perm (Fin 4), σ 0 = i ∧ σ 1 = j ∧ σ 2 = k ∧ σ 3 = l := by
  have hinj : Function.Injective ![i, j, k, l] := by
    intro a b h
    fin_cases a <;> fin_cases b <;> simp_all
  exact ⟨Equiv.ofBijective _ ((Finite.injective_iff_bijective).1 hinj), rfl, rfl, rfl, rfl⟩

theorem sum_fun_perm (σ : Equiv.Perm (Fin n)) (G : (Fin n → Fin N) → ℝ) :
    ∑ f : Fin n → Fin N, G (fun i => f (σ i)) = ∑ f, G f :=
  Equiv.sum_comp (Equiv.arrowCongr σ.symm (Equiv.refl (Fin N))) G

theorem sum_fun_pair (a b : RMat N) {i j : Fin 4} (hij : i ≠ j) :
    ∑ f : Fin 4 → Fin N, a (f i) (f j) * b (f i) (f j) = N ^ 2 * ∑ k, ∑ l, a k l * b k l := by
  obtain ⟨k, l, h1, h2, h3, h4, h5⟩ : ∃ k l : Fin 4, i ≠ k ∧ i ≠ l ∧ j ≠ k ∧ j ≠ l ∧ k ≠ l := by
    revert i j; decide
  obtain ⟨σ, rfl, rfl, rfl, rfl⟩ := exists_perm_four hij h1 h2 h3 h4 h5
  rw [sum_fun_perm σ fun f => a (f 0) (f 1) * b (f 0) (f 1), sum_fun_four]
  simp only [Matrix.cons_val, sum_const, card_univ, Fintype.card_fin, nsmul_eq_mul, ← mul_sum]
  ring

theorem sum_fun_triple (a b : RMat N) {i j k : Fin 4} (hij : i ≠ j) (hik : i ≠ k) (hjk : j ≠ k) :
    ∑ f : Fin 4 → Fin N, a (f i) (f j) * b (f i) (f k)
      = N * ∑ o, (∑ l, a o l) * (∑ l, b o l) := by
  obtain ⟨l, h1, h2, h3⟩ : ∃ l : Fin 4, i ≠ l ∧ j ≠ l ∧ k ≠ l := by
    revert i j k; decide
  obtain ⟨σ, rfl, rfl, rfl, rfl⟩ := exists_perm_four hij hik h1 hjk h2 h3
  rw [sum_fun_perm σ fun f => a (f 0) (f 1) * b (f 0) (f 2), sum_fun_four]
  simp only [Matrix.cons_val, sum_const, card_univ, Fintype.card_fin, nsmul_eq_mul, ← mul_sum]
  refine congrArg _ (sum_congr rfl fun o _ => ?_)
  rw [sum_mul]

theorem sum_fun_quad (a b : RMat N) {i j k l : Fin 4} (hij : i ≠ j) (hik : i ≠ k) (hil : i ≠ l)
    (hjk : j ≠ k) (hjl : j ≠ l) (hkl : k ≠ l) :
    ∑ f : Fin 4 → Fin N, a (f i) (f j) * b (f k) (f l) = (∑ k, ∑ l, a k l) * (∑ k, ∑ l, b k l) := by
  obtain ⟨σ, rfl, rfl, rfl, rfl⟩ := exists_perm_four hij hik hil hjk hjl hkl
  rw [sum_fun_perm σ fun f => a (f 0) (f 1) * b (f 2) (f 3), sum_fun_four]
  simp only [Matrix.cons_val, ← mul_sum, ← sum_mul]

/-- The bias-corrected estimator for four observations. -/
theorem uDcovSqr_four (a b : RMat 4) (ha : Symm a) (hb : Symm b) (ha0 : ∀ i, a i i = 0)
    (hb0 : ∀ i, b i i = 0) :
    uDcovSqr a b = (1 / 6) * (a 0 1 * b 0 1 + a 0 2 * b 0 2 + a 0 3 * b 0 3 + a 1 2 * b 1 2
        + a 1 3 * b 1 3 + a 2 3 * b 2 3)
      - (1 / 12) * (a 0 1 * b 0 2 + a 0 1 * b 0 3 + a 0 2 * b 0 1 + a 0 2 * b 0 3 + a 0 3 * b 0 1
        + a 0 3 * b 0 2 + a 1 0 * b 1 2 + a 1 0 * b 1 3 + a 1 2 * b 1 0 + a 1 2 * b 1 3 + a 1 3 * b 1 0
        + a 1 3 * b 1 2 + a 2 0 * b 2 1 + a 2 0 * b 2 3 + a 2 1 * b 2 0 + a 2 1 * b 2 3 + a 2 3 * b 2 0
        + a 2 3 * b 2 1 + a 3 0 * b 3 1 + a 3 0 * b 3 2 + a 3 1 * b 3 0 + a 3 1 * b 3 2 + a 3 2 * b 3 0
        + a 3 2 * b 3 1)
      + (1 / 6) * (a 0 1 * b 2 3 + a 0 2 * b 1 3 + a 0 3 * b 1 2 + a 1 2 * b 0 3 + a 1 3 * b 0 2
        + a 2 3 * b 0 1) := by
  rw [uDcovSqr_eq_terms a b ha hb ha0 hb0 (by norm_num)]
  simp only [Fin.sum_univ_four, ha0, hb0, ha 1 0, ha 2 0, ha 3 0, ha 2 1, ha 3 1, ha 3 2, hb 1 0, hb 2 0,
    hb 3 0, hb 2 1, hb 3 1, hb 3 2]
  norm_num
  ring

/-- Sum of the bias-corrected estimator over all samples of `n` observations from a population. -/
theorem uDcovSqr_sum_samples (a b : RMat N) (ha : Symm a) (hb : Symm b) (ha0 : ∀ i, a i i = 0)
    (hb0 : ∀ i, b i i = 0) (hN : 0 < N) {n : ℕ} (hn : 4 ≤ n) :
    ∑ f : Fin n → Fin N, uDcovSqr (sampleMat a f) (sampleMat b f) = N ^ n * dcovSqr a b := by
  have hN' : (N : ℝ) ≠ 0 := by positivity
  induction n, hn using Nat.le_induction with
  | base =>
    have e : ∀ f : Fin 4 → Fin N, uDcovSqr (sampleMat a f) (sampleMat b f) = _ := fun f =>
      uDcovSqr_four (sampleMat a f) (sampleMat b f) (fun _ _ => ha _ _) (fun _ _ => hb _ _)
        (fun _ => ha0 _) (fun _ => hb0 _)
    rw [sum_congr rfl fun f _ => e f]
    simp only [sampleMat, sum_add_distrib, sum_sub_distrib, ← mul_sum]
    simp (disch := decide) only [sum_fun_pair, sum_fun_triple, sum_fun_quad]
    rw [dcovSqr_eq_terms a b ha hb hN]
    field_simp
    ring
  | succ n hn ih =>
    have h0 : (n : ℝ) + 1 ≠ 0 := by positivity
    have h1 : ∀ f : Fin (n + 1) → Fin N, ∑ i : Fin (n + 1),
        uDcovSqr (sampleMat a fun j => f (i.succAbove j)) (sampleMat b fun j => f (i.succAbove j))
        = ((n : ℝ) + 1) * uDcovSqr (sampleMat a f) (sampleMat b f) := fun f =>
      uDcovSqr_leave_one_out (by omega) (sampleMat a f) (sampleMat b f) (fun _ _ => ha _ _)
        (fun _ _ => hb _ _) (fun _ => ha0 _) (fun _ => hb0 _)
    have h2 := sum_congr rfl fun f (_ : f ∈ univ) => h1 f
    rw [← mul_sum, sum_comm] at h2
    have h3 : ∀ i : Fin (n + 1), ∑ f : Fin (n + 1) → Fin N,
        uDcovSqr (sampleMat a fun j => f (i.succAbove j)) (sampleMat b fun j => f (i.succAbove j))
        = N * (N ^ n * dcovSqr a b) := by
      intro i
      rw [← ih]
      exact sum_fun_succAbove i fun g => uDcovSqr (sampleMat a g) (sampleMat b g)
    rw [sum_congr rfl fun i _ => h3 i, sum_const, card_univ, Fintype.card_fin, nsmul_eq_mul] at h2
    push_cast at h2
    have h4 := mul_left_cancel₀ h0 h2
    rw [← h4]
    ring

/-! ### Energy distance -/

theorem sum_fun_one (i : Fin (n + 1)) (G : Fin N → ℝ) :
    ∑ f : Fin (n + 1) → Fin N, G (f i) = N ^ n * ∑ k, G k := by
  rw [← (Fin.insertNthEquiv (fun _ : Fin (n + 1) => Fin N) i).sum_comp, Fintype.sum_prod_type]
  simp [mul_sum]

theorem sum_fun_two {i j : Fin (n + 2)} (hij : j ≠ i) (G : Fin N → Fin N → ℝ) :
    ∑ f : Fin (n + 2) → Fin N, G (f i) (f j) = N ^ n * ∑ k, ∑ l, G k l := by
  obtain ⟨j, rfl⟩ := Fin.exists_succAbove_eq hij
  rw [← (Fin.insertNthEquiv (fun _ : Fin (n + 2) => Fin N) i).sum_comp, Fintype.sum_prod_type]
  simp only [Fin.insertNthEquiv_apply, Fin.insertNth_apply_same, Fin.insertNth_apply_succAbove]
  rw [mul_sum]
  exact sum_congr rfl fun k _ => sum_fun_one j (G k)

variable {M : ℕ}

/-- Sum of the average distance between two samples over all samples from two populations. -/
theorem crossMean_sum_samples (hN : 0 < N) (hM : 0 < M) (α : ℝ) (X : Fin N → Fin p → ℝ)
    (Y : Fin M → Fin p → ℝ) :
    ∑ f : Fin (n + 1) → Fin N, ∑ g : Fin (m + 1) → Fin M,
      crossMean α (fun i => X (f i)) (fun j => Y (g j))
      = N ^ (n + 1) * M ^ (m + 1) * crossMean α X Y := by
  have hN' : (N : ℝ) ≠ 0 := by positivity
  have hM' : (M : ℝ) ≠ 0 := by positivity
  have h1 : ∀ (i : Fin (n + 1)) (j : Fin (m + 1)), ∑ f : Fin (n + 1) → Fin N,
      ∑ g : Fin (m + 1) → Fin M, dist α (X (f i)) (Y (g j))
      = N ^ n * (M ^ m * ∑ k, ∑ l, dist α (X k) (Y l)) := by
    intro i j
    rw [sum_congr rfl fun f _ => sum_fun_one j fun l => dist α (X (f i)) (Y l), ← mul_sum,
      sum_fun_one i fun k => ∑ l, dist α (X k) (Y l)]
    ring
  have h2 : ∑ f : Fin (n + 1) → Fin N, ∑ g : Fin (m + 1) → Fin M, ∑ i, ∑ j,
      dist α (X (f i)) (Y (g j))
      = ∑ i : Fin (n + 1), ∑ j : Fin (m + 1), ∑ f : Fin (n + 1) → Fin N, ∑ g : Fin (m + 1) → Fin M,
        dist α (X (f i)) (Y (g j)) := by
    rw [sum_congr rfl fun f _ => sum_comm, sum_comm]
    refine sum_congr rfl fun i _ => ?_
    rw [sum_congr rfl fun f _ => sum_comm, sum_comm]
  simp only [crossMean, ← sum_div]
  rw [h2, sum_congr rfl fun i _ => sum_congr rfl fun j _ => h1 i j]
  simp only [sum_const, card_univ, Fintype.card_fin, nsmul_eq_mul]
  push_cast
  field_simp
  ring

/-- Sum of the average distance between different observations over all samples. -/
theorem pairMean_sum_samples (hN : 0 < N) (α : ℝ) (X : Fin N → Fin p → ℝ) :
    ∑ f : Fin (n + 2) → Fin N, pairMean α (fun i => X (f i)) = N ^ (n + 2) * crossMean α X X := by
  have hN' : (N : ℝ) ≠ 0 := by positivity
  have h1 : ∑ f : Fin (n + 2) → Fin N, ∑ i, ∑ j ∈ univ.filter (· ≠ i), dist α (X (f i)) (X (f j))
      = ∑ i : Fin (n + 2), ∑ j ∈ univ.filter (· ≠ i), (N : ℝ) ^ n * ∑ k, ∑ l, dist α (X k) (X l) := by
    rw [sum_comm]
    refine sum_congr rfl fun i _ => ?_
    rw [sum_comm]
    refine sum_congr rfl fun j hj => ?_
    exact sum_fun_two (mem_filter.1 hj).2 fun k l => dist α (X k) (X l)
  simp only [pairMean, crossMean, ← sum_div]
  rw [h1]
  simp only [sum_const, card_univ, Fintype.card_fin, nsmul_eq_mul, filter_ne', card_erase_of_mem (mem_univ _)]
  have h0 : (n : ℝ) + 1 ≠ 0 := by positivity
  push_cast
  rw [show (n : ℝ) + 2 - 1 = n + 1 by ring]
  field_simp
  ring

/-- Sum of the U-statistic over all samples from two populations. -/
theorem energyU_sum_samples (hN : 0 < N) (hM : 0 < M) (hn : 2 ≤ n) (hm : 2 ≤ m) (α : ℝ)
    (X : Fin N → Fin p → ℝ) (Y : Fin M → Fin p → ℝ) :
    ∑ f : Fin n → Fin N, ∑ g : Fin m → Fin M, energyU α (fun i => X (f i)) (fun j => Y (g j))
      = N ^ n * M ^ m * energyV α X Y := by
  obtain ⟨n, rfl⟩ := Nat.exists_eq_add_of_le' hn
  obtain ⟨m, rfl⟩ := Nat.exists_eq_add_of_le' hm
  simp only [energyU, sum_sub_distrib, ← mul_sum]
  rw [crossMean_sum_samples hN hM, pairMean_sum_samples hM]
  simp only [sum_const, card_univ, Fintype.card_fun, Fintype.card_fin, nsmul_eq_mul, ← mul_sum]
  rw [pairMean_sum_samples hN, energyV]
  push_cast
  ring

end Dcor.Spec

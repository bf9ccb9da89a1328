/-
C95: how far the statistic and the p-value of the energy test in `float64` are from the exact ones.
-/
import Verif.Proofs.FloatEnergyTest
import Verif.Proofs.FloatPvalue
import Verif.Proofs.NumpySum
import Verif.Proofs.Sqrt64

namespace Dcor.Props

open Dcor

variable {sqrt : ℚ → ℚ} {sum : List ℚ → ℚ} {dot : List (ℚ × ℚ) → ℚ} {k p : ℕ} {size : Fin k → ℕ}

/-- The samples as real numbers. -/
def realSamples (x : (b : Fin k) → Fin (size b) → Fin p → ℚ) (b : Fin k) (i : Fin (size b)) (l : Fin p) : ℝ := x b i l

/-- Bound for the error of the statistic of `k` samples with `N` observations of dimension `p` at distances of at most `D`. -/
noncomputable def energyErr (k N p : ℕ) (D : ℝ) : ℝ :=
  2 * (N ^ 2 + k ^ 2 + p + 15 : ℕ) * ((k - 1) * N * D) / 2 ^ 53

/-- Samples of the same sizes made of the pooled observations in a different order. -/
def relabelRat (x : (b : Fin k) → Fin (size b) → Fin p → ℚ) (π : Equiv.Perm (Fin (∑ b, size b))) (b : Fin k)
    (i : Fin (size b)) : Fin p → ℚ := Arith.pooled x (π (finSigmaFinEquiv ⟨b, i⟩))

theorem pooled_relabelRat (x : (b : Fin k) → Fin (size b) → Fin p → ℚ) (π : Equiv.Perm (Fin (∑ b, size b)))
    (i : Fin (∑ b, size b)) : Arith.pooled (relabelRat x π) i = Arith.pooled x (π i) := by
  show Arith.pooled x (π (finSigmaFinEquiv (finSigmaFinEquiv.symm i))) = _
  rw [Equiv.apply_symm_apply]

theorem cdist_relabelRat (x : (b : Fin k) → Fin (size b) → Fin p → ℚ) (π : Equiv.Perm (Fin (∑ b, size b))) :
    (binary64 sqrt sum dot).cdist (Arith.pooled (relabelRat x π)) (Arith.pooled (relabelRat x π))
      = fun i j => (binary64 sqrt sum dot).cdist (Arith.pooled x) (Arith.pooled x) (π i) (π j) := by
  funext i j
  unfold Arith.cdist
  simp only [pooled_relabelRat]

theorem energy_stat_error (h : IsFloat64 sqrt sum dot) (hk : 2 ≤ k) (s : EstStat)
    (x : (b : Fin k) → Fin (size b) → Fin p → ℚ) {D : ℝ}
    (hD : ∀ b i c j, Spec.dist 1 (realSamples x b i) (realSamples x c j) ≤ D) (hs : ∀ b, Spec.minSize s ≤ size b)
    (hK : (∑ b, size b) ^ 2 + k ^ 2 + p + 15 ≤ 2 ^ 53) (π : Equiv.Perm (Fin (∑ b, size b))) :
    |((binary64 sqrt sum dot).energyMultivariate s
        (fun i j => (binary64 sqrt sum dot).cdist (Arith.pooled x) (Arith.pooled x) (π i) (π j)) : ℝ)
      - Spec.energyTestVal s 1 (Spec.relabel (realSamples x) π)| ≤ energyErr k (∑ b, size b) p D := by
  rw [← cdist_relabelRat]
  exact (errR_energyMultivariate h hk s (relabelRat x π) (fun b i c j => hD _ _ _ _) hs).bound hK

theorem relabel_refl (X : (b : Fin k) → Fin (size b) → Fin p → ℝ) : Spec.relabel X (Equiv.refl _) = X := by
  funext b i
  show X (finSigmaFinEquiv.symm (finSigmaFinEquiv ⟨b, i⟩)).1 (finSigmaFinEquiv.symm (finSigmaFinEquiv ⟨b, i⟩)).2 = _
  rw [Equiv.symm_apply_apply]

/-- C95: the statistic of `energy_test` for `k ≥ 2` samples with `N` observations in total, all at distances of at most `D`, is
within `2 * (N ** 2 + k ** 2 + p + 15) * (k - 1) * N * D * 2 ** -53` of the exact one. -/
theorem C95_statistic (h : IsFloat64 sqrt sum dot) (hk : 2 ≤ k) (s : EstStat)
    (x : (b : Fin k) → Fin (size b) → Fin p → ℚ) {D : ℝ}
    (hD : ∀ b i c j, Spec.dist 1 (realSamples x b i) (realSamples x c j) ≤ D) (hs : ∀ b, Spec.minSize s ≤ size b)
    (hK : (∑ b, size b) ^ 2 + k ^ 2 + p + 15 ≤ 2 ^ 53) (perms : List (Equiv.Perm (Fin (∑ b, size b)))) :
    ∃ w : ℝ, Spec.energyTestStat s 1 (realSamples x) = .fin w ∧
      |(((binary64 sqrt sum dot).energyTest s perms x).statistic : ℝ) - w|
        ≤ 2 * ((∑ b, size b) ^ 2 + k ^ 2 + p + 15 : ℕ) * ((k - 1) * (∑ b, size b : ℕ) * D) / 2 ^ 53 := by
  refine ⟨_, Spec.energyTestStat_eq s 1 (realSamples x) hs, ?_⟩
  have := energy_stat_error h hk s x hD hs hK (Equiv.refl _)
  rw [relabel_refl] at this
  exact this

open Classical in
/-- C95: the p-value is what one would get with a number of larger statistics that is at least the number of permutations
whose exact statistic is above the observed one by more than twice the error bound, and at most the number of those for
which it is not below by twice the error bound. -/
theorem C95_pvalue_partial (h : IsFloat64 sqrt sum dot) (hk : 2 ≤ k) (s : EstStat)
    (x : (b : Fin k) → Fin (size b) → Fin p → ℚ) {D : ℝ}
    (hD : ∀ b i c j, Spec.dist 1 (realSamples x b i) (realSamples x c j) ≤ D) (hs : ∀ b, Spec.minSize s ≤ size b)
    (hK : (∑ b, size b) ^ 2 + k ^ 2 + p + 15 ≤ 2 ^ 53) (perms : List (Equiv.Perm (Fin (∑ b, size b))))
    (hp : perms.length < 2 ^ 53) :
    ∃ c : ℕ, ((binary64 sqrt sum dot).energyTest s perms x).pvalue = round64 ((c + 1) / ((perms.length : ℚ) + 1)) ∧
      (perms.countP fun π => decide (Spec.energyTestVal s 1 (realSamples x) + 2 * energyErr k (∑ b, size b) p D
        < Spec.energyTestVal s 1 (Spec.relabel (realSamples x) π))) ≤ c ∧
      c ≤ perms.countP fun π => decide (Spec.energyTestVal s 1 (realSamples x) - 2 * energyErr k (∑ b, size b) p D
        < Spec.energyTestVal s 1 (Spec.relabel (realSamples x) π)) := by
  have := pvalue_bracket h perms hp (stat := (binary64 sqrt sum dot).energyMultivariate s)
    (energy_stat_error h hk s x hD hs hK)
  rw [relabel_refl] at this
  exact this

open Classical in
/-- C95: if the exact statistic of no permutation is within twice the error bound of the observed one, the p-value is the
correctly rounded exact one. What is missing are ties: `C95_tied_statistics`. -/
theorem C95_pvalue_exact_partial (h : IsFloat64 sqrt sum dot) (hk : 2 ≤ k) (s : EstStat)
    (x : (b : Fin k) → Fin (size b) → Fin p → ℚ) {D : ℝ}
    (hD : ∀ b i c j, Spec.dist 1 (realSamples x b i) (realSamples x c j) ≤ D) (hs : ∀ b, Spec.minSize s ≤ size b)
    (hK : (∑ b, size b) ^ 2 + k ^ 2 + p + 15 ≤ 2 ^ 53) (perms : List (Equiv.Perm (Fin (∑ b, size b))))
    (hp : perms.length < 2 ^ 53)
    (hsep : ∀ π ∈ perms, 2 * energyErr k (∑ b, size b) p D < |Spec.energyTestVal s 1 (Spec.relabel (realSamples x) π)
      - Spec.energyTestVal s 1 (realSamples x)|) :
    ((binary64 sqrt sum dot).energyTest s perms x).pvalue = round64 (((perms.countP fun π =>
      decide (Spec.energyTestVal s 1 (realSamples x) < Spec.energyTestVal s 1 (Spec.relabel (realSamples x) π)) : ℕ) + 1)
        / ((perms.length : ℚ) + 1)) := by
  have := pvalue_separated h perms hp (stat := (binary64 sqrt sum dot).energyMultivariate s)
    (energy_stat_error h hk s x hD hs hK)
  rw [relabel_refl] at this
  exact this hsep

/-! ### Concrete samples -/

/-- Two samples of two numbers: `0, 0` and `3, 3`. -/
def farSamples : (b : Fin 2) → Fin ((fun _ : Fin 2 => 2) b) → Fin 1 → ℚ := fun b _ _ => (![0, 3] : Fin 2 → ℚ) b

/-- The permutation of the pooled sample which exchanges a `0` and a `3`. -/
def farPerm : Equiv.Perm (Fin (∑ b : Fin 2, (fun _ : Fin 2 => 2) b)) :=
  Equiv.swap (finSigmaFinEquiv ⟨0, 1⟩) (finSigmaFinEquiv ⟨1, 0⟩)

theorem dist_real (a b : ℝ) : Spec.dist 1 (fun _ : Fin 1 => a) (fun _ => b) = |a - b| := by
  unfold Spec.dist
  rw [Real.rpow_one, Fin.sum_univ_one, Real.sqrt_sq_eq_abs]

theorem farSamples_dist (b : Fin 2) (i : Fin 2) (c : Fin 2) (j : Fin 2) :
    Spec.dist 1 (realSamples farSamples b i) (realSamples farSamples c j) ≤ 3 := by
  have e : ∀ (b : Fin 2) (i : Fin 2), realSamples farSamples b i = fun _ => (((![0, 3] : Fin 2 → ℚ) b : ℚ) : ℝ) := fun _ _ => rfl
  rw [e, e, dist_real]
  have : ∀ b c : Fin 2, |(![0, 3] : Fin 2 → ℚ) b - (![0, 3] : Fin 2 → ℚ) c| ≤ 3 := by decide +kernel
  exact_mod_cast this b c

theorem energyTestVal_two (X : (b : Fin 2) → Fin ((fun _ : Fin 2 => 2) b) → Fin p → ℝ) :
    Spec.energyTestVal .v 1 X = Spec.energyV 1 (X 0) (X 1) := by
  have f0 : (Finset.univ.filter ((0 : Fin 2) < ·)) = {1} := by decide
  have f1 : (Finset.univ.filter ((1 : Fin 2) < ·)) = ∅ := by decide
  unfold Spec.energyTestVal Spec.energyVal
  rw [Fin.sum_univ_two, f0, f1, Finset.sum_singleton, Finset.sum_empty]
  norm_num

/-- The statistic of `0, 0` and `3, 3` is 6 and that of `0, 3` and `0, 3` is 0, which is far enough: the p-value is 1/2. -/
example (h : IsFloat64 sqrt sum dot) : ((binary64 sqrt sum dot).energyTest .v [farPerm] farSamples).pvalue = 1 / 2 := by
  have e1 : Spec.energyTestVal .v 1 (realSamples farSamples) = 6 := by
    rw [energyTestVal_two]
    unfold Spec.energyV Spec.crossMean
    have e : ∀ (b : Fin 2) (i : Fin 2), realSamples farSamples b i = fun _ => (![0, 3] : Fin 2 → ℝ) b := by
      intro b i
      funext l
      show (((![0, 3] : Fin 2 → ℚ) b : ℚ) : ℝ) = _
      fin_cases b <;> norm_num
    simp only [e, dist_real, Fin.sum_univ_two]
    norm_num
  have e2 : Spec.energyTestVal .v 1 (Spec.relabel (realSamples farSamples) farPerm) = 0 := by
    rw [energyTestVal_two]
    have e : ∀ (b : Fin 2) (i : Fin 2), Spec.relabel (realSamples farSamples) farPerm b i = fun _ => (![0, 3] : Fin 2 → ℝ) i := by
      intro b i
      have : ∀ (b : Fin 2) (i : Fin 2), (finSigmaFinEquiv.symm (farPerm (finSigmaFinEquiv ⟨b, i⟩))).1 = i := by decide +kernel
      funext l
      show (((![0, 3] : Fin 2 → ℚ) (finSigmaFinEquiv.symm (farPerm (finSigmaFinEquiv ⟨b, i⟩))).1 : ℚ) : ℝ) = _
      rw [this]
      fin_cases i <;> norm_num
    unfold Spec.energyV Spec.crossMean
    simp only [e, dist_real, Fin.sum_univ_two]
    norm_num
  rw [C95_pvalue_exact_partial h le_rfl .v farSamples farSamples_dist (fun _ => by decide) (by norm_num) [farPerm] (by norm_num)]
  · rw [List.countP_singleton, e1, e2]
    norm_num
    decide +kernel
  · intro π hπ
    rw [List.mem_singleton.1 hπ, e1, e2]
    unfold energyErr
    norm_num

/-- Three samples of two, three and one numbers. -/
example (h : IsFloat64 sqrt sum dot) (perms : List (Equiv.Perm (Fin (∑ b, (![2, 3, 1] : Fin 3 → ℕ) b)))) :
    ∃ w : ℝ, Spec.energyTestStat .v 1 (realSamples fun (b : Fin 3) (i : Fin (![2, 3, 1] b)) (_ : Fin 1) =>
        ((i : ℕ) : ℚ) / 8) = .fin w ∧
      |(((binary64 sqrt sum dot).energyTest .v perms fun (b : Fin 3) (i : Fin (![2, 3, 1] b)) (_ : Fin 1) =>
        ((i : ℕ) : ℚ) / 8).statistic : ℝ) - w| ≤ 1 / 10 ^ 13 := by
  obtain ⟨w, h1, h2⟩ := C95_statistic h (by norm_num) .v (fun (b : Fin 3) (i : Fin (![2, 3, 1] b)) (_ : Fin 1) =>
    ((i : ℕ) : ℚ) / 8) (D := 1 / 4) (by
      intro b i c j
      show Spec.dist 1 (fun _ : Fin 1 => (((((i : ℕ) : ℚ) / 8 : ℚ)) : ℝ)) (fun _ => (((((j : ℕ) : ℚ) / 8 : ℚ)) : ℝ)) ≤ _
      rw [dist_real]
      have hb : ∀ b : Fin 3, (![2, 3, 1] : Fin 3 → ℕ) b ≤ 3 := by decide
      have hi : (i : ℕ) ≤ 2 := by have := i.isLt; have := hb b; omega
      have hj : (j : ℕ) ≤ 2 := by have := j.isLt; have := hb c; omega
      have hi' : ((i : ℕ) : ℝ) ≤ 2 := by exact_mod_cast hi
      have hj' : ((j : ℕ) : ℝ) ≤ 2 := by exact_mod_cast hj
      have hi0 : (0 : ℝ) ≤ ((i : ℕ) : ℝ) := Nat.cast_nonneg _
      have hj0 : (0 : ℝ) ≤ ((j : ℕ) : ℝ) := Nat.cast_nonneg _
      push_cast
      rw [abs_le]
      constructor <;> linarith) (by decide) (by decide) perms
  refine ⟨w, h1, h2.trans ?_⟩
  have e : ∑ b, (![2, 3, 1] : Fin 3 → ℕ) b = 6 := by decide
  rw [e]
  norm_num

/-! ### Ties -/

/-- A permutation within the samples does not change the statistic. -/
theorem energyTestVal_within (s : EstStat) (X : (b : Fin k) → Fin (size b) → Fin p → ℝ) (σ : (b : Fin k) → Equiv.Perm (Fin (size b))) :
    Spec.energyTestVal s 1 (fun b i => X b (σ b i)) = Spec.energyTestVal s 1 X := by
  have cross : ∀ b c, Spec.crossMean 1 (fun i => X b (σ b i)) (fun i => X c (σ c i)) = Spec.crossMean 1 (X b) (X c) := by
    intro b c
    unfold Spec.crossMean
    rw [Equiv.sum_comp (σ b) fun i => ∑ j, Spec.dist 1 (X b i) (X c (σ c j))]
    congr 1
    exact Finset.sum_congr rfl fun i _ => Equiv.sum_comp (σ c) fun j => Spec.dist 1 (X b i) (X c j)
  have pair : ∀ b, Spec.pairMean 1 (fun i => X b (σ b i)) = Spec.pairMean 1 (X b) := by
    intro b
    unfold Spec.pairMean
    congr 1
    rw [← Equiv.sum_comp (σ b) fun i => ∑ j ∈ Finset.univ.filter (· ≠ i), Spec.dist 1 (X b i) (X b j)]
    refine Finset.sum_congr rfl fun i _ => ?_
    refine Finset.sum_bij (fun j _ => σ b j) ?_ ?_ ?_ ?_
    · intro j hj
      simpa using hj
    · intro j _ j' _ e
      exact (σ b).injective e
    · intro j hj
      exact ⟨(σ b).symm j, by simpa [Equiv.symm_apply_eq] using hj, by simp⟩
    · intro j _
      rfl
  unfold Spec.energyTestVal
  refine Finset.sum_congr rfl fun b _ => Finset.sum_congr rfl fun c _ => ?_
  congr 1
  unfold Spec.energyVal Spec.energyV Spec.energyU
  cases s <;> simp only [cross, pair]

/-- Two samples of two points in the plane. -/
def tieSamples : (b : Fin 2) → Fin ((fun _ : Fin 2 => 2) b) → Fin 2 → ℚ := fun b i l =>
  (![![![2, 0], ![1, 2]], ![![0, 2], ![2, 1]]] : Fin 2 → Fin 2 → Fin 2 → ℚ) b i l

/-- The permutation of the pooled sample which exchanges the two points of the first sample. -/
def tiePerm : Equiv.Perm (Fin (∑ b : Fin 2, (fun _ : Fin 2 => 2) b)) :=
  Equiv.swap (finSigmaFinEquiv ⟨0, 0⟩) (finSigmaFinEquiv ⟨0, 1⟩)

theorem tie_energy (s : EstStat) :
    ((binary64 sqrt64 numpySum seqDot64).energyTest s [tiePerm] tieSamples).pvalue = 1 ∧
    ((binary64 sqrt64 seqSum64 seqDot64).energyTest s [tiePerm] tieSamples).pvalue = 1 := by
  cases s <;> decide +kernel

theorem relabel_tie : Spec.relabel (realSamples tieSamples) tiePerm
    = fun b i => realSamples tieSamples b ((if b = 0 then Equiv.swap 0 1 else Equiv.refl _ : Equiv.Perm (Fin 2)) i) := by
  funext b i
  have e : tiePerm (finSigmaFinEquiv ⟨b, i⟩)
      = finSigmaFinEquiv ⟨b, (if b = 0 then Equiv.swap 0 1 else Equiv.refl _ : Equiv.Perm (Fin 2)) i⟩ := by
    revert b i
    decide +kernel
  unfold Spec.relabel Spec.pooled
  rw [e, Equiv.symm_apply_apply]

open Classical in
/-- C95: without a distance between the statistics nothing can be said, whatever the number of permutations: the samples
`(2, 0), (1, 2)` and `(0, 2), (2, 1)`, and permutations which exchange the two points of the first sample. No statistic is larger
than the observed one and the p-value should be `1 / (m + 1)`, but it is 1, for the U-statistic and the V-statistic, with sums
from left to right and with the pairwise sums of NumPy. -/
theorem C95_tied_statistics (s : EstStat) (m : ℕ) (hm : m < 2 ^ 53) :
    (∀ π ∈ List.replicate m tiePerm, Spec.energyTestVal s 1 (Spec.relabel (realSamples tieSamples) π)
      = Spec.energyTestVal s 1 (realSamples tieSamples)) ∧
    ((List.replicate m tiePerm).countP (fun π => decide (Spec.energyTestVal s 1 (realSamples tieSamples)
      < Spec.energyTestVal s 1 (Spec.relabel (realSamples tieSamples) π))) + 1 : ℚ) / ((List.replicate m tiePerm).length + 1)
      = 1 / (m + 1) ∧
    ((binary64 sqrt64 numpySum seqDot64).energyTest s (List.replicate m tiePerm) tieSamples).pvalue = 1 ∧
    ((binary64 sqrt64 seqSum64 seqDot64).energyTest s (List.replicate m tiePerm) tieSamples).pvalue = 1 := by
  have key : Spec.energyTestVal s 1 (Spec.relabel (realSamples tieSamples) tiePerm)
      = Spec.energyTestVal s 1 (realSamples tieSamples) := by
    rw [relabel_tie]
    exact energyTestVal_within s (realSamples tieSamples) fun b => if b = 0 then Equiv.swap 0 1 else Equiv.refl _
  have rep : ∀ {sum : List ℚ → ℚ} (_ : IsFloat64 sqrt64 sum seqDot64),
      ((binary64 sqrt64 sum seqDot64).energyTest s [tiePerm] tieSamples).pvalue = 1 →
      ((binary64 sqrt64 sum seqDot64).energyTest s (List.replicate m tiePerm) tieSamples).pvalue = 1 := by
    intro sum h h1
    unfold Arith.energyTest at h1 ⊢
    exact pvalue_replicate h h1 m hm
  refine ⟨?_, ?_, rep float64_numpy (tie_energy s).1, rep float64_seq.1 (tie_energy s).2⟩
  · intro π hπ
    rw [List.eq_of_mem_replicate hπ]
    exact key
  · rw [List.countP_replicate, key, List.length_replicate]
    simp

end Dcor.Props

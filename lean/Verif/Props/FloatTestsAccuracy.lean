/-
C93: how far the centred matrices, the statistic and the p-value of the distance covariance test in `float64` are from the
exact ones.
-/
import Verif.Proofs.ErrorReal
import Verif.Proofs.FloatPvalue
import Verif.Proofs.NumpySum
import Verif.Proofs.Sqrt64
import Verif.Props.ErrorBound
import Verif.Proofs.TermsOk
import Verif.Spec.Tests

namespace Dcor.Props

open Dcor

variable {sqrt : ℚ → ℚ} {sum : List ℚ → ℚ} {dot : List (ℚ × ℚ) → ℚ} {n p q : ℕ}

/-! ### Centred matrices -/

theorem errR_dist (h : IsFloat64 sqrt sum dot) {x : Fin n → Fin p → ℚ} {A : ℝ} (hA : ∀ i j, realDist x i j ≤ A)
    (i j : Fin n) : ErrR (distErr p) A (realDist x i j) ((binary64 sqrt sum dot).euclidean x i j) :=
  ErrR.ofNear (Near.distMat h x i j) (hA i j)

theorem errR_dist' (h : IsFloat64 sqrt sum dot) {x : Fin n → Fin p → ℚ} {A : ℝ} (hA : ∀ i j, realDist x i j ≤ A)
    (i j : Fin n) : ErrR (distErr p) (if i = j then 0 else A) (realDist x i j) ((binary64 sqrt sum dot).euclidean x i j) := by
  refine ErrR.ofNear (Near.distMat h x i j) ?_
  split_ifs with hij
  · subst hij
    exact (Spec.distMat_diag one_ne_zero _ i).le
  · exact hA i j

theorem errR_doubleCentered (h : IsFloat64 sqrt sum dot) (hn : 0 < n) {x : Fin n → Fin p → ℚ} {A : ℝ}
    (hA : ∀ i j, realDist x i j ≤ A) (i j : Fin n) :
    ErrR (distErr p + 2 * n + 6) (4 * A) (Spec.centre (realDist x) i j)
      ((binary64 sqrt sum dot).doubleCentered ((binary64 sqrt sum dot).euclidean x) i j) :=
  ErrR.doubleCentered h hn (Spec.distMat_symm 1 _) (errR_dist h hA) i j

theorem errR_uCentered (h : IsFloat64 sqrt sum dot) (hn : 3 < n) {x : Fin n → Fin p → ℚ} {A : ℝ}
    (hA : ∀ i j, realDist x i j ≤ A) (i j : Fin n) :
    ErrR (distErr p + 2 * n + 6) (if i = j then 0 else 6 * A) (Spec.uCentre (realDist x) i j)
      ((binary64 sqrt sum dot).uDistanceMatrix x i j) :=
  ErrR.uCentered h hn (Spec.distMat_symm 1 _) (errR_dist' h hA) i j

/-- C93: if no distance is more than `A`, every entry of the double-centred distance matrix is within
`8 * (2 * n + p + 12) * A * 2 ** -53` of the exact one. -/
theorem C93_double_centered (h : IsFloat64 sqrt sum dot) (hn : 0 < n) {x : Fin n → Fin p → ℚ} {A : ℝ}
    (hA : ∀ i j, realDist x i j ≤ A) (hK : 2 * n + p + 12 ≤ 2 ^ 53) (i j : Fin n) :
    |((binary64 sqrt sum dot).doubleCentered ((binary64 sqrt sum dot).euclidean x) i j : ℝ) - Spec.centre (realDist x) i j|
      ≤ 8 * (2 * n + p + 12 : ℕ) * A / 2 ^ 53 := by
  have := ((errR_doubleCentered h hn hA i j).mono (l := 2 * n + p + 12) (by unfold distErr; omega) le_rfl).bound hK
  refine this.trans (le_of_eq ?_)
  ring

/-- C93: the same for the U-centred distance matrix, with `12` for `8`. -/
theorem C93_u_centered (h : IsFloat64 sqrt sum dot) (hn : 3 < n) {x : Fin n → Fin p → ℚ} {A : ℝ}
    (hA : ∀ i j, realDist x i j ≤ A) (hK : 2 * n + p + 12 ≤ 2 ^ 53) (i j : Fin n) :
    |((binary64 sqrt sum dot).uDistanceMatrix x i j : ℝ) - Spec.uCentre (realDist x) i j|
      ≤ 12 * (2 * n + p + 12 : ℕ) * A / 2 ^ 53 := by
  have A0 : 0 ≤ A := (Spec.distMat_diag one_ne_zero _ ⟨0, by omega⟩).ge.trans (hA ⟨0, by omega⟩ ⟨0, by omega⟩)
  have := ((errR_uCentered h hn hA i j).mono (l := 2 * n + p + 12) (m' := 6 * A) (by unfold distErr; omega)
    (by split_ifs <;> linarith)).bound hK
  refine this.trans (le_of_eq ?_)
  ring

/-- C93: the inner product of the U-centred matrices, which the partial statistics consist of. -/
theorem C93_u_product (h : IsFloat64 sqrt sum dot) (hn : 3 < n) {x : Fin n → Fin p → ℚ} {y : Fin n → Fin q → ℚ} {A B : ℝ}
    (hA : ∀ i j, realDist x i j ≤ A) (hB : ∀ i j, realDist y i j ≤ B) (hK : n ^ 2 + 4 * n + max p q + 25 ≤ 2 ^ 53) :
    |((binary64 sqrt sum dot).uProduct ((binary64 sqrt sum dot).uDistanceMatrix x)
        ((binary64 sqrt sum dot).uDistanceMatrix y) : ℝ) - Spec.uDcovSqr (realDist x) (realDist y)|
      ≤ 216 * (n ^ 2 + 4 * n + max p q + 25 : ℕ) * A * B / 2 ^ 53 := by
  have h1 := ErrR.uProduct h hn (errR_uCentered h hn hA) (errR_uCentered h hn hB)
  have h3 := (h1.mono (l := n ^ 2 + 4 * n + max p q + 25) (by unfold distErr; omega) le_rfl).bound hK
  refine h3.trans (le_of_eq ?_)
  ring

/-! ### The statistic and the p-value -/

/-- Bound for the error of the statistics of the distance covariance test. -/
noncomputable def statErr (n p q : ℕ) (A B : ℝ) : ℝ := 32 * (n ^ 2 + 4 * n + max p q + 25 : ℕ) * n * A * B / 2 ^ 53

theorem centre_perm (a : Fin n → Fin n → ℝ) (π : Equiv.Perm (Fin n)) (i j : Fin n) :
    Spec.centre (fun i j => a (π i) (π j)) i j = Spec.centre a (π i) (π j) := by
  unfold Spec.centre
  rw [Equiv.sum_comp π (fun k => a (π i) k), Equiv.sum_comp π (fun k => a k (π j)),
    Equiv.sum_comp π (fun k => ∑ l, a k (π l))]
  congr 2
  apply Finset.sum_congr rfl
  intro k _
  exact Equiv.sum_comp π (fun l => a k l)

/-- The statistic of the matrices after a permutation of the observations of `x`. -/
theorem stat_error (h : IsFloat64 sqrt sum dot) (hn : 0 < n) {x : Fin n → Fin p → ℚ} {y : Fin n → Fin q → ℚ} {A B : ℝ}
    (hA : ∀ i j, realDist x i j ≤ A) (hB : ∀ i j, realDist y i j ≤ B) (hK : n ^ 2 + 4 * n + max p q + 25 ≤ 2 ^ 53)
    (π : Equiv.Perm (Fin n)) :
    |((binary64 sqrt sum dot).imul n ((binary64 sqrt sum dot).meanProduct
        (fun i j => (binary64 sqrt sum dot).doubleCentered ((binary64 sqrt sum dot).euclidean x) (π i) (π j))
        ((binary64 sqrt sum dot).doubleCentered ((binary64 sqrt sum dot).euclidean y))) : ℝ)
      - Spec.dcovStat 1 (fun i k => (x (π i) k : ℝ)) (fun i k => (y i k : ℝ))| ≤ statErr n p q A B := by
  have h1 := ErrR.meanProduct h hn (fun i j => errR_doubleCentered h hn hA (π i) (π j)) (errR_doubleCentered h hn hB)
  have h2 := h1.imul (z := n)
  have e : (n : ℝ) * ((∑ i, ∑ j, Spec.centre (realDist x) (π i) (π j) * Spec.centre (realDist y) i j) / n ^ 2)
      = Spec.dcovStat 1 (fun i k => (x (π i) k : ℝ)) (fun i k => (y i k : ℝ)) := by
    unfold Spec.dcovStat Spec.dcovSqr
    simp only [← centre_perm]
    rfl
  rw [e] at h2
  have h3 := (h2.mono (l := n ^ 2 + 4 * n + max p q + 25) (by unfold distErr; omega) le_rfl).bound hK
  refine h3.trans (le_of_eq ?_)
  unfold statErr
  ring

/-- C93: if no distance between observations of `x` is more than `A` and none between observations of `y` more than `B`, the
statistic of `distance_covariance_test` is within `32 * (n ** 2 + 4 * n + max p q + 25) * n * A * B * 2 ** -53` of the
exact one. -/
theorem C93_statistic (h : IsFloat64 sqrt sum dot) (hn : 0 < n) {x : Fin n → Fin p → ℚ} {y : Fin n → Fin q → ℚ} {A B : ℝ}
    (hA : ∀ i j, realDist x i j ≤ A) (hB : ∀ i j, realDist y i j ≤ B) (hK : n ^ 2 + 4 * n + max p q + 25 ≤ 2 ^ 53)
    (perms : List (Equiv.Perm (Fin n))) :
    |(((binary64 sqrt sum dot).dcovTest perms x y).statistic : ℝ)
      - Spec.dcovStat 1 (fun i k => (x i k : ℝ)) (fun i k => (y i k : ℝ))|
      ≤ 32 * (n ^ 2 + 4 * n + max p q + 25 : ℕ) * n * A * B / 2 ^ 53 :=
  stat_error h hn hA hB hK (Equiv.refl _)

open Classical in
/-- C93: the p-value is what one would get with a number of larger statistics that is at least the number of permutations
whose exact statistic is above the observed one by more than twice the error bound, and at most the number of those for
which it is not below by twice the error bound. -/
theorem C93_pvalue_partial (h : IsFloat64 sqrt sum dot) (hn : 0 < n) {x : Fin n → Fin p → ℚ} {y : Fin n → Fin q → ℚ} {A B : ℝ}
    (hA : ∀ i j, realDist x i j ≤ A) (hB : ∀ i j, realDist y i j ≤ B) (hK : n ^ 2 + 4 * n + max p q + 25 ≤ 2 ^ 53)
    (perms : List (Equiv.Perm (Fin n))) (hp : perms.length < 2 ^ 53) :
    ∃ c : ℕ, ((binary64 sqrt sum dot).dcovTest perms x y).pvalue = round64 ((c + 1) / ((perms.length : ℚ) + 1)) ∧
      (perms.countP fun π => decide (Spec.dcovStat 1 (fun i k => (x i k : ℝ)) (fun i k => (y i k : ℝ)) + 2 * statErr n p q A B
        < Spec.dcovStat 1 (fun i k => (x (π i) k : ℝ)) (fun i k => (y i k : ℝ)))) ≤ c ∧
      c ≤ perms.countP fun π => decide (Spec.dcovStat 1 (fun i k => (x i k : ℝ)) (fun i k => (y i k : ℝ))
        - 2 * statErr n p q A B < Spec.dcovStat 1 (fun i k => (x (π i) k : ℝ)) (fun i k => (y i k : ℝ))) := by
  exact pvalue_bracket h perms hp (stat := fun d => (binary64 sqrt sum dot).imul n ((binary64 sqrt sum dot).meanProduct d
    ((binary64 sqrt sum dot).doubleCentered ((binary64 sqrt sum dot).euclidean y)))) (stat_error h hn hA hB hK)

open Classical in
/-- C93: if the exact statistic of no permutation is within twice the error bound of the observed one, the p-value is the
correctly rounded exact one. What is missing are ties: `C93_tied_statistics`. -/
theorem C93_pvalue_exact_partial (h : IsFloat64 sqrt sum dot) (hn : 0 < n) {x : Fin n → Fin p → ℚ} {y : Fin n → Fin q → ℚ}
    {A B : ℝ} (hA : ∀ i j, realDist x i j ≤ A) (hB : ∀ i j, realDist y i j ≤ B)
    (hK : n ^ 2 + 4 * n + max p q + 25 ≤ 2 ^ 53) (perms : List (Equiv.Perm (Fin n))) (hp : perms.length < 2 ^ 53)
    (hsep : ∀ π ∈ perms, 2 * statErr n p q A B < |Spec.dcovStat 1 (fun i k => (x (π i) k : ℝ)) (fun i k => (y i k : ℝ))
      - Spec.dcovStat 1 (fun i k => (x i k : ℝ)) (fun i k => (y i k : ℝ))|) :
    ((binary64 sqrt sum dot).dcovTest perms x y).pvalue = round64 (((perms.countP fun π =>
      decide (Spec.dcovStat 1 (fun i k => (x i k : ℝ)) (fun i k => (y i k : ℝ))
        < Spec.dcovStat 1 (fun i k => (x (π i) k : ℝ)) (fun i k => (y i k : ℝ))) : ℕ) + 1) / ((perms.length : ℚ) + 1)) := by
  exact pvalue_separated h perms hp (stat := fun d => (binary64 sqrt sum dot).imul n ((binary64 sqrt sum dot).meanProduct d
    ((binary64 sqrt sum dot).doubleCentered ((binary64 sqrt sum dot).euclidean y)))) (stat_error h hn hA hB hK) hsep

/-- Three observations, which are also in the second sample. -/
def sepX : Fin 3 → Fin 1 → ℚ := fun i _ => (![0, 0, 3] : Fin 3 → ℚ) i

theorem sepX_dist : realDist sepX = ![![0, 0, 3], ![0, 0, 3], ![3, 3, 0]] := by
  funext i j
  unfold realDist
  rw [distMat_one]
  fin_cases i <;> fin_cases j <;> simp [sepX]

theorem sepX_le (i j : Fin 3) : realDist sepX i j ≤ 3 := by
  rw [sepX_dist]
  fin_cases i <;> fin_cases j <;> norm_num

/-- The statistics 16 / 3 of the data and 4 / 3 after the exchange of the last two observations are far enough. -/
example (h : IsFloat64 sqrt sum dot) : ((binary64 sqrt sum dot).dcovTest [Equiv.swap 1 2] sepX sepX).pvalue = 1 / 2 := by
  have e1 : Spec.dcovStat 1 (fun i k => (sepX i k : ℝ)) (fun i k => (sepX i k : ℝ)) = 16 / 3 := by
    show 3 * Spec.dcovSqr (realDist sepX) (realDist sepX) = _
    unfold Spec.dcovSqr Spec.centre
    simp only [sepX_dist, Fin.sum_univ_three]
    norm_num [Matrix.cons_val_two]
  have e2 : Spec.dcovStat 1 (fun i k => (sepX (Equiv.swap 1 2 i) k : ℝ)) (fun i k => (sepX i k : ℝ)) = 4 / 3 := by
    show 3 * Spec.dcovSqr (fun i j => realDist sepX (Equiv.swap 1 2 i) (Equiv.swap 1 2 j)) (realDist sepX) = _
    have s0 : Equiv.swap (1 : Fin 3) 2 0 = 0 := by decide
    have s1 : Equiv.swap (1 : Fin 3) 2 1 = 2 := by decide
    have s2 : Equiv.swap (1 : Fin 3) 2 2 = 1 := by decide
    unfold Spec.dcovSqr Spec.centre
    simp only [sepX_dist, Fin.sum_univ_three, s0, s1, s2]
    norm_num [Matrix.cons_val_two]
  rw [C93_pvalue_exact_partial h (by norm_num) sepX_le sepX_le (by norm_num) [Equiv.swap 1 2] (by norm_num)]
  · rw [List.countP_singleton, e1, e2]
    norm_num
    decide +kernel
  · intro π hπ
    rw [List.mem_singleton.1 hπ, e1, e2]
    unfold statErr
    norm_num

/-! ### Ties -/

/-- Five observations. -/
def tieX : Fin 5 → Fin 1 → ℚ := fun i _ => (![10, 4, 12, 9, 5] : Fin 5 → ℚ) i

/-- Two groups. -/
def tieY : Fin 5 → Fin 1 → ℚ := fun i _ => (![0, 0, 1, 1, 1] : Fin 5 → ℚ) i

/-- A permutation of the observations of `x` which does not change `y` does not change the statistic. -/
theorem dcovStat_tied {X : Fin n → Fin p → ℝ} {Y : Fin n → Fin q → ℝ} {π : Equiv.Perm (Fin n)} (hY : ∀ i k, Y (π i) k = Y i k) :
    Spec.dcovStat 1 (fun i k => X (π i) k) Y = Spec.dcovStat 1 X Y := by
  have e : ∀ i j, Spec.distMat 1 Y i j = Spec.distMat 1 Y (π i) (π j) := by
    intro i j
    have : Y = fun i k => Y (π i) k := by funext i k; exact (hY i k).symm
    conv_lhs => rw [this]
    rfl
  have e1 : ∀ i j, Spec.centre (Spec.distMat 1 Y) i j = Spec.centre (Spec.distMat 1 Y) (π i) (π j) := by
    intro i j
    rw [← centre_perm]
    congr 1
    funext i j
    exact e i j
  have e2 : ∀ i j, Spec.centre (Spec.distMat 1 fun i k => X (π i) k) i j = Spec.centre (Spec.distMat 1 X) (π i) (π j) :=
    fun i j => centre_perm (Spec.distMat 1 X) π i j
  unfold Spec.dcovStat Spec.dcovSqr
  congr 2
  calc _ = ∑ i, ∑ j, Spec.centre (Spec.distMat 1 X) (π i) (π j) * Spec.centre (Spec.distMat 1 Y) (π i) (π j) := by
        refine Finset.sum_congr rfl fun i _ => Finset.sum_congr rfl fun j _ => ?_
        rw [e2, e1]
    _ = ∑ i, ∑ j, Spec.centre (Spec.distMat 1 X) (π i) j * Spec.centre (Spec.distMat 1 Y) (π i) j :=
        Finset.sum_congr rfl fun i _ => Equiv.sum_comp π
          (fun j => Spec.centre (Spec.distMat 1 X) (π i) j * Spec.centre (Spec.distMat 1 Y) (π i) j)
    _ = _ := Equiv.sum_comp π (fun i => ∑ j, Spec.centre (Spec.distMat 1 X) i j * Spec.centre (Spec.distMat 1 Y) i j)

/-- One tied permutation which is counted as larger. -/
theorem tie_all (h : IsFloat64 sqrt sum dot) {x : Fin n → Fin p → ℚ} {y : Fin n → Fin q → ℚ} {π : Equiv.Perm (Fin n)}
    (h1 : ((binary64 sqrt sum dot).dcovTest [π] x y).pvalue = 1) (m : ℕ) (hm : m < 2 ^ 53) :
    ((binary64 sqrt sum dot).dcovTest (List.replicate m π) x y).pvalue = 1 := by
  unfold Arith.dcovTest at h1 ⊢
  exact pvalue_replicate h h1 m hm

theorem tie_numpy : ((binary64 sqrt64 numpySum seqDot64).dcovTest [Equiv.swap 0 1] tieX tieY).pvalue = 1 := by
  decide +kernel

theorem tie_seq : ((binary64 sqrt64 seqSum64 seqDot64).dcovTest [Equiv.swap 0 1] tieX tieY).pvalue = 1 := by
  decide +kernel

open Classical in
/-- C93: without a distance between the statistics nothing can be said, whatever the number of permutations: the values
10, 4 in one group and 12, 9, 5 in the other, and permutations which exchange the two observations of the first group. The
data are the same after the permutation except for their order, so that no statistic is larger than the observed one and the
p-value should be `1 / (m + 1)`, but it is 1, both with sums from left to right and with the pairwise sums of NumPy. -/
theorem C93_tied_statistics (m : ℕ) (hm : m < 2 ^ 53) :
    (∀ π ∈ List.replicate m (Equiv.swap 0 1), Spec.dcovStat 1 (fun i k => (tieX (π i) k : ℝ)) (fun i k => (tieY i k : ℝ))
      = Spec.dcovStat 1 (fun i k => (tieX i k : ℝ)) (fun i k => (tieY i k : ℝ))) ∧
    ((List.replicate m (Equiv.swap 0 1)).countP (fun π =>
      decide (Spec.dcovStat 1 (fun i k => (tieX i k : ℝ)) (fun i k => (tieY i k : ℝ))
        < Spec.dcovStat 1 (fun i k => (tieX (π i) k : ℝ)) (fun i k => (tieY i k : ℝ)))) + 1 : ℚ)
      / ((List.replicate m (Equiv.swap (0 : Fin 5) 1)).length + 1) = 1 / (m + 1) ∧
    ((binary64 sqrt64 numpySum seqDot64).dcovTest (List.replicate m (Equiv.swap 0 1)) tieX tieY).pvalue = 1 ∧
    ((binary64 sqrt64 seqSum64 seqDot64).dcovTest (List.replicate m (Equiv.swap 0 1)) tieX tieY).pvalue = 1 := by
  have key : Spec.dcovStat 1 (fun i k => (tieX (Equiv.swap 0 1 i) k : ℝ)) (fun i k => (tieY i k : ℝ))
      = Spec.dcovStat 1 (fun i k => (tieX i k : ℝ)) (fun i k => (tieY i k : ℝ)) := by
    refine dcovStat_tied (X := fun i k => (tieX i k : ℝ)) (π := Equiv.swap 0 1) ?_
    intro i k
    have : tieY (Equiv.swap 0 1 i) k = tieY i k := by revert i k; decide +kernel
    rw [this]
  refine ⟨?_, ?_, tie_all float64_numpy tie_numpy m hm, tie_all float64_seq.1 tie_seq m hm⟩
  · intro π hπ
    rw [List.eq_of_mem_replicate hπ]
    exact key
  · rw [List.countP_replicate, key, List.length_replicate]
    simp

end Dcor.Props

/-
Averages of the distance statistics over all relabellings of the observations.
-/
import Verif.Proofs.EnergySpec
import Mathlib.Algebra.BigOperators.Group.Finset.Basic
import Mathlib.Data.Fintype.Perm

namespace Dcor.Spec

open Finset

variable {n m p q : ℕ}

/-- Sum over all relabellings of one entry of a matrix. -/
def permSum (A : RMat n) (i j : Fin n) : ℝ := ∑ π : Equiv.Perm (Fin n), A (π i) (π j)

theorem permSum_perm (A : RMat n) (σ : Equiv.Perm (Fin n)) (i j : Fin n) :
    permSum A (σ i) (σ j) = permSum A i j := by
  unfold permSum
  exact Equiv.sum_comp (Equiv.mulRight σ) fun π => A (π i) (π j)

theorem permSum_diag (A : RMat n) (i j : Fin n) : permSum A i i = permSum A j j := by
  rw [← permSum_perm A (Equiv.swap i j) i i, Equiv.swap_apply_left]

theorem permSum_off (A : RMat n) {i j k l : Fin n} (hij : i ≠ j) (hkl : k ≠ l) :
    permSum A i j = permSum A k l := by
  have h1 : Equiv.swap i k j ≠ k := by
    intro h
    have : Equiv.swap i k j = Equiv.swap i k i := by rw [h, Equiv.swap_apply_left]
    exact hij ((Equiv.swap i k).injective this).symm
  rw [← permSum_perm A (Equiv.swap i k) i j, Equiv.swap_apply_left,
    ← permSum_perm A (Equiv.swap (Equiv.swap i k j) l) k, Equiv.swap_apply_left,
    Equiv.swap_apply_of_ne_of_ne h1.symm hkl]

/-- The number of relabellings. -/
theorem card_perm (n : ℕ) : (∑ _π : Equiv.Perm (Fin n), (1 : ℝ)) = n.factorial := by
  rw [sum_const, card_univ, Fintype.card_perm, Fintype.card_fin, nsmul_eq_mul, mul_one]

theorem sum_permSum (A B : RMat n) :
    ∑ π : Equiv.Perm (Fin n), ∑ i, ∑ j, A (π i) (π j) * B i j = ∑ i, ∑ j, permSum A i j * B i j := by
  rw [sum_comm]
  refine sum_congr rfl fun i _ => ?_
  rw [sum_comm]
  exact sum_congr rfl fun j _ => by rw [permSum, sum_mul]

theorem sum_permSum_diag (A : RMat n) : ∑ i, permSum A i i = n.factorial * ∑ i, A i i := by
  unfold permSum
  rw [sum_comm, sum_congr rfl fun π _ => Equiv.sum_comp π fun i => A i i, ← card_perm, sum_mul]
  simp

theorem sum_permSum_all (A : RMat n) : ∑ i, ∑ j, permSum A i j = n.factorial * ∑ i, ∑ j, A i j := by
  have := sum_permSum A fun _ _ => 1
  simp only [mul_one] at this
  rw [← this, sum_congr rfl fun π _ => sum_reorder π A, ← card_perm, sum_mul]
  simp

/-- If the rows of the matrices add to zero, the average over all relabellings of their product is the
product of their traces divided by `n - 1`. -/
theorem perm_average {A B : RMat n} (hn : 2 ≤ n) (hA : ∀ i, ∑ j, A i j = 0)
    (hB : ∀ i, ∑ j, B i j = 0) :
    (∑ π : Equiv.Perm (Fin n), ∑ i, ∑ j, A (π i) (π j) * B i j) / n.factorial
      = (∑ i, A i i) * (∑ i, B i i) / (n - 1) := by
  have hf : (n.factorial : ℝ) ≠ 0 := by positivity
  have hn1 : (n : ℝ) - 1 ≠ 0 := by
    have : (2 : ℝ) ≤ n := by exact_mod_cast hn
    linarith
  have hn0 : (n : ℝ) ≠ 0 := by positivity
  let i0 : Fin n := ⟨0, by omega⟩
  let i1 : Fin n := ⟨1, by omega⟩
  have h01 : i0 ≠ i1 := by simp [i0, i1]
  set D := permSum A i0 i0
  set E := permSum A i0 i1
  have hT : ∀ i j, permSum A i j = E + if i = j then D - E else 0 := by
    intro i j
    split_ifs with h
    · subst h; rw [permSum_diag A i i0]; ring
    · rw [permSum_off A h h01, add_zero]
  have hrow : ∑ j, permSum A i0 j = 0 := by
    unfold permSum
    rw [sum_comm]
    refine sum_eq_zero fun π _ => ?_
    rw [Equiv.sum_comp π fun j => A (π i0) j, hA]
  have hDE : n * E + (D - E) = 0 := by
    rw [← hrow]
    simp only [hT, sum_add_distrib, sum_const, card_univ, Fintype.card_fin, nsmul_eq_mul, sum_ite_eq,
      mem_univ, if_true]
  have hD : n * D = n.factorial * ∑ i, A i i := by
    rw [← sum_permSum_diag, sum_congr rfl fun i _ => permSum_diag A i i0, sum_const, card_univ,
      Fintype.card_fin, nsmul_eq_mul]
  have hsum : ∑ i, ∑ j, permSum A i j * B i j = (D - E) * ∑ i, B i i := by
    have : ∀ i, ∑ j, permSum A i j * B i j = (D - E) * B i i := by
      intro i
      simp only [hT, add_mul, sum_add_distrib, ← mul_sum, hB, mul_zero, zero_add, ite_mul, zero_mul,
        sum_ite_eq, mem_univ, if_true]
    rw [sum_congr rfl fun i _ => this i, mul_sum]
  rw [sum_permSum, hsum]
  have h3 : (D - E) * (n - 1) = n.factorial * ∑ i, A i i := by
    rw [← hD]
    linear_combination -hDE
  rw [div_eq_div_iff hf hn1]
  linear_combination (∑ i, B i i) * h3

theorem trace_centre (a : RMat n) (h0 : ∀ i, a i i = 0) : ∑ i, centre a i i = -(∑ i, ∑ j, a i j) / n := by
  rcases Nat.eq_zero_or_pos n with rfl | hn
  · simp
  have hn' : (n : ℝ) ≠ 0 := by positivity
  unfold centre
  simp only [h0, sum_add_distrib, sum_sub_distrib, sum_const, card_univ, Fintype.card_fin, nsmul_eq_mul,
    ← sum_div]
  rw [sum_comm (f := fun i k => a k i)]
  field_simp
  simp

/-- Average of the squared distance covariance over all relabellings of the first sample. -/
theorem dcovSqr_perm_average (hn : 2 ≤ n) (a b : RMat n) (ha : ∀ i, a i i = 0) (hb : ∀ i, b i i = 0) :
    (∑ π : Equiv.Perm (Fin n), dcovSqr (fun i j => a (π i) (π j)) b) / n.factorial
      = (∑ i, ∑ j, a i j) / n ^ 2 * ((∑ i, ∑ j, b i j) / n ^ 2) / (n - 1) := by
  have hn' : (n : ℝ) ≠ 0 := by positivity
  have h := perm_average hn (sum_centre_row a) (sum_centre_row b)
  rw [trace_centre a ha, trace_centre b hb] at h
  have e : ∀ π : Equiv.Perm (Fin n), dcovSqr (fun i j => a (π i) (π j)) b
      = (∑ i, ∑ j, centre a (π i) (π j) * centre b i j) / n ^ 2 := by
    intro π
    rw [show (fun i j => a (π i) (π j)) = reorder π a from rfl, dcovSqr, centre_reorder]
    rfl
  rw [sum_congr rfl fun π _ => e π, ← sum_div, div_right_comm, h]
  field_simp

/-- The average of the bias-corrected squared distance covariance over all relabellings of the first sample
is zero. -/
theorem uDcovSqr_perm_average (hn : 3 < n) (a b : RMat n) (ha : Symm a) (hb : Symm b)
    (ha0 : ∀ i, a i i = 0) (hb0 : ∀ i, b i i = 0) :
    ∑ π : Equiv.Perm (Fin n), uDcovSqr (fun i j => a (π i) (π j)) b = 0 := by
  have h := perm_average (A := uCentre a) (B := uCentre b) (by omega)
    (sum_uCentre_row a ha ha0 (by omega)) (sum_uCentre_row b hb hb0 (by omega))
  have hf : (n.factorial : ℝ) ≠ 0 := by positivity
  simp only [uCentre_diag, sum_const_zero, mul_zero, zero_div, div_eq_zero_iff, hf, or_false] at h
  have e : ∀ π : Equiv.Perm (Fin n), uDcovSqr (fun i j => a (π i) (π j)) b
      = (∑ i, ∑ j, uCentre a (π i) (π j) * uCentre b i j) / (n * (n - 3)) := by
    intro π
    rw [show (fun i j => a (π i) (π j)) = reorder π a from rfl, uDcovSqr, uCentre_reorder,
      uInner_eq _ _ fun i => by rw [uCentre_diag, mul_zero]]
    rfl
  rw [sum_congr rfl fun π _ => e π, ← sum_div, h, zero_div]

/-! ### Energy distance -/

/-- The first `n` observations of the relabelled pooled sample. -/
def firstPart (Z : Fin (n + m) → Fin p → ℝ) (π : Equiv.Perm (Fin (n + m))) (i : Fin n) : Fin p → ℝ :=
  Z (π (Fin.castAdd m i))

/-- The last `m` observations of the relabelled pooled sample. -/
def secondPart (Z : Fin (n + m) → Fin p → ℝ) (π : Equiv.Perm (Fin (n + m))) (i : Fin m) : Fin p → ℝ :=
  Z (π (Fin.natAdd n i))

theorem sum_perm_avg {ι : Type} [Fintype ι] {A : RMat n} {E c : ℝ} {e f : ι → Fin n}
    (h : ∀ k, permSum A (e k) (f k) = E) (hc : (Fintype.card ι : ℝ) = c) (hc0 : c ≠ 0) :
    ∑ π : Equiv.Perm (Fin n), (∑ k, A (π (e k)) (π (f k))) / c = E := by
  rw [← sum_div, sum_comm]
  have : ∀ k, ∑ π : Equiv.Perm (Fin n), A (π (e k)) (π (f k)) = E := h
  rw [sum_congr rfl fun k _ => this k, sum_const, card_univ, nsmul_eq_mul, hc]
  field_simp

theorem sum_perm_crossMean (hn : 0 < n) (hm : 0 < m) (α : ℝ) (Z : Fin (n + m) → Fin p → ℝ) {E : ℝ}
    (hE : ∀ i j, i ≠ j → permSum (distMat α Z) i j = E) :
    ∑ π, crossMean α (firstPart Z π : Fin n → _) (secondPart Z π : Fin m → _) = E := by
  have h := sum_perm_avg (ι := Fin n × Fin m) (A := distMat α Z) (E := E) (c := n * m)
    (e := fun k => Fin.castAdd m k.1) (f := fun k => Fin.natAdd n k.2)
    (fun k => hE _ _ (by intro h; have := congrArg Fin.val h; simp at this; omega))
    (by simp) (by positivity)
  rw [← h]
  refine sum_congr rfl fun π _ => ?_
  rw [crossMean, ← univ_product_univ, sum_product]
  rfl

theorem sum_perm_pairMean {N : ℕ} (hn : 2 ≤ n) (α : ℝ) (Z : Fin N → Fin p → ℝ) {e : Fin n → Fin N}
    (he : Function.Injective e) {E : ℝ} (hE : ∀ i j, i ≠ j → permSum (distMat α Z) i j = E) :
    ∑ π : Equiv.Perm (Fin N), pairMean α (fun i => Z (π (e i))) = E := by
  have hn' : (2 : ℝ) ≤ n := by exact_mod_cast hn
  have h1 : ∀ π : Equiv.Perm (Fin N), pairMean α (fun i => Z (π (e i)))
      = (∑ i, ∑ j ∈ univ.filter (· ≠ i), distMat α Z (π (e i)) (π (e j))) / (n * (n - 1)) := fun π => rfl
  rw [sum_congr rfl fun π _ => h1 π, ← sum_div, sum_comm]
  have h2 : ∀ i : Fin n, ∑ π : Equiv.Perm (Fin N), ∑ j ∈ univ.filter (· ≠ i),
      distMat α Z (π (e i)) (π (e j)) = (n - 1) * E := by
    intro i
    have h3 : ∀ j ∈ univ.filter (· ≠ i), ∑ π : Equiv.Perm (Fin N), distMat α Z (π (e i)) (π (e j)) = E :=
      fun j hj => hE (e i) (e j) fun h => (mem_filter.1 hj).2 (he h).symm
    rw [sum_comm, sum_congr rfl h3, sum_const, nsmul_eq_mul, filter_ne', card_erase_of_mem (mem_univ i), card_univ, Fintype.card_fin,
      Nat.cast_sub (by omega), Nat.cast_one]
  rw [sum_congr rfl fun i _ => h2 i, sum_const, card_univ, Fintype.card_fin, nsmul_eq_mul]
  have : (n : ℝ) - 1 ≠ 0 := by linarith
  field_simp

theorem exists_off (α : ℝ) (Z : Fin n → Fin p → ℝ) :
    ∃ E, ∀ i j, i ≠ j → permSum (distMat α Z) i j = E := by
  by_cases h : ∃ i j : Fin n, i ≠ j
  · obtain ⟨i, j, hij⟩ := h
    exact ⟨_, fun k l hkl => permSum_off _ hkl hij⟩
  · push Not at h
    exact ⟨0, fun i j hij => absurd (h i j) hij⟩

/-- The average of the energy distance (U-statistic) over all relabellings of the pooled sample is zero. -/
theorem energyU_perm_average (hn : 2 ≤ n) (hm : 2 ≤ m) (α : ℝ) (Z : Fin (n + m) → Fin p → ℝ) :
    ∑ π, energyU α (firstPart Z π : Fin n → _) (secondPart Z π : Fin m → _) = 0 := by
  obtain ⟨E, hE⟩ := exists_off α Z
  unfold energyU
  rw [sum_sub_distrib, sum_sub_distrib, ← mul_sum,
    sum_perm_crossMean (by omega) (by omega) α Z hE]
  have h1 := sum_perm_pairMean hn α Z (e := Fin.castAdd m) (Fin.castAdd_injective n m) hE
  have h2 := sum_perm_pairMean hm α Z (e := Fin.natAdd n) (Fin.natAdd_injective m n) hE
  have e1 : ∑ π, pairMean α (firstPart Z π : Fin n → _) = E := h1
  have e2 : ∑ π, pairMean α (secondPart Z π : Fin m → _) = E := h2
  rw [e1, e2]
  ring

theorem sum_off_eq (α : ℝ) (Z : Fin n → Fin p → ℝ) {E : ℝ} (hn : 2 ≤ n)
    (hE : ∀ i j, i ≠ j → permSum (distMat α Z) i j = E) : E / n.factorial = pairMean α Z := by
  have hf : (n.factorial : ℝ) ≠ 0 := by positivity
  have h := sum_perm_pairMean hn α Z (e := id) Function.injective_id hE
  rw [← h]
  have : ∀ π : Equiv.Perm (Fin n), pairMean α (fun i => Z (π (id i))) = pairMean α Z := by
    intro π
    unfold pairMean
    congr 1
    rw [← Equiv.sum_comp π fun i => ∑ j ∈ univ.filter (· ≠ i), dist α (Z i) (Z j)]
    refine sum_congr rfl fun i _ => ?_
    simp only [sum_filter, id]
    rw [← Equiv.sum_comp π fun j => if j ≠ π i then dist α (Z (π i)) (Z j) else 0]
    simp
  rw [sum_congr rfl fun π _ => this π, sum_const, card_univ, Fintype.card_perm, Fintype.card_fin,
    nsmul_eq_mul]
  field_simp

/-- The average of the energy distance (V-statistic) over all relabellings of the pooled sample. -/
theorem energyV_perm_average (hn : 0 < n) (hm : 0 < m) {α : ℝ} (hα : 0 < α)
    (Z : Fin (n + m) → Fin p → ℝ) :
    (∑ π, energyV α (firstPart Z π : Fin n → _) (secondPart Z π : Fin m → _)) / (n + m).factorial
      = (1 / n + 1 / m) * pairMean α Z := by
  have hn' : (n : ℝ) ≠ 0 := by positivity
  have hm' : (m : ℝ) ≠ 0 := by positivity
  obtain ⟨E, hE⟩ := exists_off α Z
  have self : ∀ {k : ℕ} (_ : 0 < k) {e : Fin k → Fin (n + m)}, Function.Injective e →
      ∑ π : Equiv.Perm (Fin (n + m)), crossMean α (fun i => Z (π (e i))) (fun i => Z (π (e i)))
        = E - E / k := by
    intro k hk e he
    rcases Nat.lt_or_ge k 2 with h | h
    · obtain rfl : k = 1 := by omega
      simp [crossMean, dist_self hα.ne']
    · rw [sum_congr rfl fun π _ => crossMean_self h hα fun i => Z (π (e i)), sum_sub_distrib, ← sum_div,
        sum_perm_pairMean h α Z he hE]
  have h1 := self hn (e := Fin.castAdd m) (Fin.castAdd_injective n m)
  have h2 := self hm (e := Fin.natAdd n) (Fin.natAdd_injective m n)
  have e1 : ∑ π, crossMean α (firstPart Z π : Fin n → _) (firstPart Z π : Fin n → _) = E - E / n := h1
  have e2 : ∑ π, crossMean α (secondPart Z π : Fin m → _) (secondPart Z π : Fin m → _) = E - E / m := h2
  unfold energyV
  rw [sum_sub_distrib, sum_sub_distrib, ← mul_sum, sum_perm_crossMean hn hm α Z hE, e1, e2,
    ← sum_off_eq α Z (by omega) hE]
  field_simp
  ring

end Dcor.Spec

/-
The variance of the product of two U-centred matrices over all relabellings of one of them.
-/
import Verif.Proofs.Power
import Verif.Proofs.Independence

namespace Dcor.Spec

open Finset

variable {n : ℕ}

/-- Symmetric matrices with zero diagonal whose rows add to zero. -/
structure Centred (a : RMat n) : Prop where
  symm : ∀ i j, a i j = a j i
  diag : ∀ i, a i i = 0
  row : ∀ i, ∑ j, a i j = 0

/-- Sum over all relabellings of the product of two entries. -/
noncomputable def pairSum (a : RMat n) (i j k l : Fin n) : ℝ := ∑ π : Equiv.Perm (Fin n), a (π i) (π j) * a (π k) (π l)

section PairSum

variable {a b : RMat n} {i j k l : Fin n}

theorem pairSum_perm (a : RMat n) (σ : Equiv.Perm (Fin n)) (i j k l : Fin n) :
    pairSum a (σ i) (σ j) (σ k) (σ l) = pairSum a i j k l := by
  unfold pairSum
  exact Equiv.sum_comp (Equiv.mulRight σ) fun π => a (π i) (π j) * a (π k) (π l)

theorem pairSum_row (ha : Centred a) (i j k : Fin n) : ∑ l, pairSum a i j k l = 0 := by
  unfold pairSum
  rw [sum_comm]
  refine sum_eq_zero fun π _ => ?_
  rw [← mul_sum, Equiv.sum_comp π fun l => a (π k) l, ha.row, mul_zero]

theorem pairSum_diag (ha : Centred a) (i j k : Fin n) : pairSum a i j k k = 0 := by
  unfold pairSum
  exact sum_eq_zero fun π _ => by rw [ha.diag, mul_zero]

theorem pairSum_swap (ha : Centred a) (i j k l : Fin n) : pairSum a i j k l = pairSum a i j l k := by
  unfold pairSum
  exact sum_congr rfl fun π _ => by rw [ha.symm (π k)]

theorem pairSum_swap_left (ha : Centred a) (i j k l : Fin n) : pairSum a i j k l = pairSum a j i k l := by
  unfold pairSum
  exact sum_congr rfl fun π _ => by rw [ha.symm (π i)]

/-- The pairs have one common index. -/
theorem pairSum_one (ha : Centred a) (hij : i ≠ j) (hli : l ≠ i) (hlj : l ≠ j) :
    ((n : ℝ) - 2) * pairSum a i j i l = - pairSum a i j i j := by
  have h (l' : Fin n) : pairSum a i j i l' = pairSum a i j i l + (if l' = i then - pairSum a i j i l else 0)
      + if l' = j then pairSum a i j i j - pairSum a i j i l else 0 := by
    by_cases h1 : l' = i
    · rw [h1, if_pos rfl, if_neg hij, pairSum_diag ha]
      ring
    · by_cases h2 : l' = j
      · rw [h2, if_pos rfl, if_neg hij.symm]
        ring
      · rw [if_neg h1, if_neg h2, ← pairSum_perm a (Equiv.swap l' l), Equiv.swap_apply_of_ne_of_ne (Ne.symm h1) hli.symm,
          Equiv.swap_apply_of_ne_of_ne (Ne.symm h2) hlj.symm, Equiv.swap_apply_left]
        ring
  have h2 := pairSum_row ha i j i
  rw [sum_congr rfl fun l' _ => h l'] at h2
  simp only [sum_add_distrib, sum_const, card_univ, Fintype.card_fin, nsmul_eq_mul, sum_ite_eq', mem_univ, if_true] at h2
  linarith

/-- The pairs have no common index. -/
theorem pairSum_none (ha : Centred a) (hij : i ≠ j) (hki : k ≠ i) (hkj : k ≠ j) (hli : l ≠ i) (hlj : l ≠ j)
    (hkl : k ≠ l) : ((n : ℝ) - 3) * ((n : ℝ) - 2) * pairSum a i j k l = 2 * pairSum a i j i j := by
  have h (l' : Fin n) : pairSum a i j k l' = pairSum a i j k l + (if l' = i then pairSum a i j k i - pairSum a i j k l else 0)
      + (if l' = j then pairSum a i j k j - pairSum a i j k l else 0) + if l' = k then - pairSum a i j k l else 0 := by
    by_cases h1 : l' = i
    · rw [h1, if_pos rfl, if_neg hij, if_neg hki.symm]
      ring
    · by_cases h2 : l' = j
      · rw [h2, if_pos rfl, if_neg hij.symm, if_neg hkj.symm]
        ring
      · by_cases h3 : l' = k
        · rw [h3, if_pos rfl, if_neg hki, if_neg hkj, pairSum_diag ha]
          ring
        · rw [if_neg h1, if_neg h2, if_neg h3, ← pairSum_perm a (Equiv.swap l' l),
            Equiv.swap_apply_of_ne_of_ne (Ne.symm h1) hli.symm, Equiv.swap_apply_of_ne_of_ne (Ne.symm h2) hlj.symm,
            Equiv.swap_apply_of_ne_of_ne (Ne.symm h3) hkl, Equiv.swap_apply_left]
          ring
  have h2 := pairSum_row ha i j k
  rw [sum_congr rfl fun l' _ => h l'] at h2
  simp only [sum_add_distrib, sum_const, card_univ, Fintype.card_fin, nsmul_eq_mul, sum_ite_eq', mem_univ, if_true] at h2
  have e1 : ((n : ℝ) - 2) * pairSum a i j k i = - pairSum a i j i j := by
    rw [pairSum_swap ha, pairSum_one ha hij hki hkj]
  have e2 : ((n : ℝ) - 2) * pairSum a i j k j = - pairSum a i j i j := by
    rw [pairSum_swap ha, pairSum_swap_left ha, pairSum_one ha hij.symm hkj hki, pairSum_swap_left ha, pairSum_swap ha]
  linear_combination ((n : ℝ) - 2) * h2 - e1 - e2

theorem pairSum_self (ha : Centred a) (hij : i ≠ j) :
    (n : ℝ) * (n - 1) * pairSum a i j i j = n.factorial * ∑ i, ∑ j, a i j ^ 2 := by
  obtain ⟨c, hc⟩ : ∃ c : RMat n, c = fun i j => a i j ^ 2 := ⟨_, rfl⟩
  have e (i j : Fin n) : pairSum a i j i j = permSum c i j := by
    unfold pairSum permSum
    exact sum_congr rfl fun π _ => by rw [hc]; exact (pow_two _).symm
  have h := sum_permSum_all c
  have h1 (i' j' : Fin n) : permSum c i' j' = permSum c i j + if j' = i' then - permSum c i j else 0 := by
    by_cases h : j' = i'
    · have : permSum c i' i' = 0 := by
        unfold permSum
        exact sum_eq_zero fun π _ => by rw [hc]; simp [ha.diag]
      rw [if_pos h, h, this]
      ring
    · rw [if_neg h, permSum_off c (Ne.symm h) hij, add_zero]
  rw [sum_congr rfl fun i' _ => sum_congr rfl fun j' _ => h1 i' j'] at h
  simp only [sum_add_distrib, sum_const, card_univ, Fintype.card_fin, nsmul_eq_mul, sum_ite_eq', mem_univ, if_true] at h
  rw [e]
  have h2 : ∑ i, ∑ j, a i j ^ 2 = ∑ i, ∑ j, c i j := by rw [hc]
  rw [h2, ← h]
  ring

theorem sum_pairSum (hn : 3 < n) (ha : Centred a) (hb : Centred b) (hij : i ≠ j) :
    ((n : ℝ) - 3) * ∑ k, ∑ l, pairSum a i j k l * b k l = 2 * ((n : ℝ) - 1) * pairSum a i j i j * b i j := by
  have hn' : (3 : ℝ) < n := by exact_mod_cast hn
  have hn3 : (n : ℝ) - 3 ≠ 0 := by linarith
  have hn2 : (n : ℝ) - 2 ≠ 0 := by linarith
  obtain ⟨q, hq⟩ : ∃ q, q = pairSum a i j i j := ⟨_, rfl⟩
  obtain ⟨u, hu⟩ : ∃ u, u = -q / ((n : ℝ) - 2) := ⟨_, rfl⟩
  obtain ⟨w, hw⟩ : ∃ w, w = 2 * q / (((n : ℝ) - 3) * (n - 2)) := ⟨_, rfl⟩
  have e1 {l : Fin n} (hli : l ≠ i) (hlj : l ≠ j) : pairSum a i j i l = u := by
    rw [hu, eq_div_iff hn2, mul_comm, pairSum_one ha hij hli hlj, hq]
  have e2 {l : Fin n} (hli : l ≠ i) (hlj : l ≠ j) : pairSum a i j j l = u := by
    rw [hu, eq_div_iff hn2, mul_comm, pairSum_swap_left ha, pairSum_one ha hij.symm hlj hli, pairSum_swap_left ha,
      pairSum_swap ha, hq]
  have e3 : pairSum a i j j i = q := by rw [pairSum_swap ha, hq]
  have h (k l : Fin n) : pairSum a i j k l * b k l = w * b k l + (if k = i then (u - w) * b k l else 0)
      + (if k = j then (u - w) * b k l else 0) + (if l = i then (u - w) * b k l else 0)
      + (if l = j then (u - w) * b k l else 0) + (if k = i then if l = j then (q - 2 * u + w) * b k l else 0 else 0)
      + (if k = j then if l = i then (q - 2 * u + w) * b k l else 0 else 0) := by
    rcases eq_or_ne k l with rfl | hkl
    · simp [hb.diag]
    by_cases hki : k = i
    · subst hki
      by_cases hlj : l = j
      · subst hlj
        simp only [if_true, if_neg hij, if_neg hij.symm, ← hq]
        ring
      · simp only [if_true, if_neg hij, if_neg hkl.symm, if_neg hlj, e1 hkl.symm hlj]
        ring
    · by_cases hkj : k = j
      · subst hkj
        by_cases hli : l = i
        · subst hli
          simp only [if_true, if_neg hij, if_neg hij.symm, e3]
          ring
        · simp only [if_true, if_neg hij.symm, if_neg hkl.symm, if_neg hli, e2 hli hkl.symm]
          ring
      · by_cases hli : l = i
        · subst hli
          rw [pairSum_swap ha, e1 hki hkj]
          simp only [if_true, if_neg hki, if_neg hkj, if_neg hij]
          ring
        · by_cases hlj : l = j
          · subst hlj
            rw [pairSum_swap ha, e2 hki hkj]
            simp only [if_true, if_neg hki, if_neg hkj, if_neg hij.symm]
            ring
          · have : pairSum a i j k l = w := by
              rw [hw, eq_div_iff (mul_ne_zero hn3 hn2), mul_comm, pairSum_none ha hij hki hkj hli hlj hkl, hq]
            rw [this]
            simp only [if_neg hki, if_neg hkj, if_neg hli, if_neg hlj]
            ring
  have hcol (i : Fin n) : ∑ k, b k i = 0 := by
    rw [← hb.row i]
    exact sum_congr rfl fun k _ => hb.symm k i
  have hs : ∑ k, ∑ l, pairSum a i j k l * b k l = 2 * (q - 2 * u + w) * b i j := by
    simp only [h, sum_add_distrib, ← mul_sum, hb.row, sum_const_zero, mul_zero, sum_ite_eq', mem_univ, if_true]
    have t (x : Fin n) (f : Fin n → Fin n → ℝ) : ∑ k, ∑ l, (if k = x then f k l else 0) = ∑ l, f x l := by
      rw [sum_comm]
      simp
    simp only [t, ← mul_sum, hb.row, hcol, mul_zero]
    simp
    rw [hb.symm j i]
    ring
  rw [hs, hu, hw, ← hq]
  field_simp
  ring

end PairSum

/-- The sum of the squared products over all relabellings. -/
theorem perm_variance (hn : 3 < n) {a b : RMat n} (ha : Centred a) (hb : Centred b) :
    (∑ π : Equiv.Perm (Fin n), (∑ i, ∑ j, a (π i) (π j) * b i j) ^ 2) / n.factorial
      = 2 / (n * (n - 3)) * ((∑ i, ∑ j, a i j ^ 2) * ∑ i, ∑ j, b i j ^ 2) := by
  have hn' : (3 : ℝ) < n := by exact_mod_cast hn
  have hn3 : (n : ℝ) - 3 ≠ 0 := by linarith
  have hn1 : (n : ℝ) - 1 ≠ 0 := by linarith
  have hn0 : (n : ℝ) ≠ 0 := by linarith
  have hf : (n.factorial : ℝ) ≠ 0 := by positivity
  have e : ∑ π : Equiv.Perm (Fin n), (∑ i, ∑ j, a (π i) (π j) * b i j) ^ 2
      = ∑ i, ∑ j, b i j * ∑ k, ∑ l, pairSum a i j k l * b k l := by
    have e1 (π : Equiv.Perm (Fin n)) : (∑ i, ∑ j, a (π i) (π j) * b i j) ^ 2
        = ∑ i, ∑ j, ∑ k, ∑ l, a (π i) (π j) * b i j * (a (π k) (π l) * b k l) := by
      rw [pow_two, sum_mul]
      refine sum_congr rfl fun i _ => ?_
      rw [sum_mul]
      refine sum_congr rfl fun j _ => ?_
      rw [mul_sum]
      exact sum_congr rfl fun k _ => mul_sum _ _ _
    rw [sum_congr rfl fun π _ => e1 π, sum_comm]
    refine sum_congr rfl fun i _ => ?_
    rw [sum_comm]
    refine sum_congr rfl fun j _ => ?_
    rw [sum_comm, mul_sum]
    refine sum_congr rfl fun k _ => ?_
    rw [sum_comm, mul_sum]
    refine sum_congr rfl fun l _ => ?_
    rw [pairSum, sum_mul, mul_sum]
    exact sum_congr rfl fun π _ => by ring
  rw [e]
  have h (i j : Fin n) : b i j * ∑ k, ∑ l, pairSum a i j k l * b k l
      = 2 * n.factorial * (∑ i, ∑ j, a i j ^ 2) / (n * (n - 3)) * b i j ^ 2 := by
    rcases eq_or_ne i j with rfl | hij
    · simp [hb.diag]
    · have h1 := sum_pairSum hn ha hb hij
      have h2 := pairSum_self ha hij
      have h3 : ∑ k, ∑ l, pairSum a i j k l * b k l = 2 * n.factorial * (∑ i, ∑ j, a i j ^ 2) / (n * (n - 3)) * b i j := by
        rw [div_mul_eq_mul_div, eq_div_iff (mul_ne_zero hn0 hn3)]
        linear_combination (n : ℝ) * h1 + 2 * b i j * h2
      rw [h3]
      ring
  simp only [h, ← mul_sum]
  field_simp

theorem uCentre_centred (hn : 2 < n) {a : RMat n} (ha : Symm a) (h0 : ∀ i, a i i = 0) : Centred (uCentre a) :=
  ⟨uCentre_symm a ha, uCentre_diag a, sum_uCentre_row a ha h0 hn⟩

theorem uResidual_centred {a c : RMat n} (ha : Centred a) (hc : Centred c) : Centred (uResidual c a) := by
  unfold uResidual
  split_ifs
  · exact ha
  · refine ⟨fun i j => ?_, fun i => ?_, fun i => ?_⟩
    · beta_reduce
      rw [ha.symm, hc.symm]
    · beta_reduce
      rw [ha.diag, hc.diag, mul_zero, sub_zero]
    · beta_reduce
      rw [sum_sub_distrib, ← mul_sum, ha.row, hc.row, mul_zero, sub_zero]

/-- Average and variance over all relabellings of the inner product of two centred matrices. -/
theorem uInner_perm (hn : 3 < n) {a b : RMat n} (ha : Centred a) (hb : Centred b) :
    (∑ π : Equiv.Perm (Fin n), uInner (fun i j => a (π i) (π j)) b) = 0 ∧
    (∑ π : Equiv.Perm (Fin n), uInner (fun i j => a (π i) (π j)) b ^ 2) / n.factorial
      = 2 / (n * (n - 3)) * (uInner a a * uInner b b) := by
  have hn' : (3 : ℝ) < n := by exact_mod_cast hn
  have hn3 : (n : ℝ) - 3 ≠ 0 := by linarith
  have hn0 : (n : ℝ) ≠ 0 := by linarith
  have hf : (n.factorial : ℝ) ≠ 0 := by positivity
  have e (π : Equiv.Perm (Fin n)) : uInner (fun i j => a (π i) (π j)) b
      = (∑ i, ∑ j, a (π i) (π j) * b i j) / (n * (n - 3)) := uInner_eq _ _ fun i => by rw [hb.diag, mul_zero]
  have e2 {c : RMat n} (hc : Centred c) : uInner c c = (∑ i, ∑ j, c i j ^ 2) / (n * (n - 3)) := by
    rw [uInner_eq _ _ fun i => by rw [hc.diag, mul_zero]]
    simp only [pow_two]
  constructor
  · have h := perm_average (by omega : 2 ≤ n) ha.row hb.row
    simp only [ha.diag, sum_const_zero, zero_mul, zero_div, div_eq_zero_iff, hf, or_false] at h
    rw [sum_congr rfl fun π _ => e π, ← sum_div, h, zero_div]
  · have h := perm_variance hn ha hb
    rw [sum_congr rfl fun π _ => by rw [e π, div_pow], ← sum_div, div_right_comm, h, e2 ha, e2 hb]
    field_simp

end Dcor.Spec

/-
U-centring does not see terms of the form `r i + r j`; the samples whose U-centred distance matrix vanishes.
-/
import Verif.Proofs.SpecAlg
import Verif.Proofs.FromTerms

namespace Dcor.Spec

open Finset

variable {n : ℕ}

/-- U-centred matrices do not change if `r i + r j` is added off the diagonal. -/
theorem uCentre_add_radii (hn : 2 < n) {a b : Fin n → Fin n → ℝ} (ha0 : ∀ i, a i i = 0) (hb0 : ∀ i, b i i = 0) (r : Fin n → ℝ)
    (h : ∀ i j, i ≠ j → b i j = a i j + r i + r j) : uCentre b = uCentre a := by
  have h2 : (2 : ℝ) < n := by exact_mod_cast hn
  have e2 : (n : ℝ) - 2 ≠ 0 := by intro e; linarith
  have e1 : (n : ℝ) - 1 ≠ 0 := by intro e; linarith
  have hrow : ∀ i, ∑ k, b i k = ∑ k, a i k + (n - 2) * r i + ∑ k, r k := by
    intro i
    have e : ∀ k, b i k = a i k + r i + r k - if k = i then 2 * r i else 0 := by
      intro k
      by_cases hk : k = i
      · subst hk; rw [if_pos rfl, ha0, hb0]; ring
      · rw [if_neg hk, h i k (Ne.symm hk)]; ring
    simp only [e, sum_sub_distrib, sum_add_distrib, sum_const, card_univ, Fintype.card_fin, nsmul_eq_mul, sum_ite_eq',
      mem_univ, if_true]
    ring
  have hcol : ∀ j, ∑ k, b k j = ∑ k, a k j + (n - 2) * r j + ∑ k, r k := by
    intro j
    have e : ∀ k, b k j = a k j + r k + r j - if k = j then 2 * r j else 0 := by
      intro k
      by_cases hk : k = j
      · subst hk; rw [if_pos rfl, ha0, hb0]; ring
      · rw [if_neg hk, h k j hk]; ring
    simp only [e, sum_sub_distrib, sum_add_distrib, sum_const, card_univ, Fintype.card_fin, nsmul_eq_mul, sum_ite_eq',
      mem_univ, if_true]
    ring
  have htot : ∑ k, ∑ l, b k l = ∑ k, ∑ l, a k l + 2 * (n - 1) * ∑ k, r k := by
    simp only [hrow, sum_add_distrib, sum_const, card_univ, Fintype.card_fin, nsmul_eq_mul, ← mul_sum]
    ring
  funext i j
  unfold uCentre
  by_cases hij : i = j
  · rw [if_pos hij, if_pos hij]
  · rw [if_neg hij, if_neg hij, h i j hij, hrow, hcol, htot]
    field_simp
    ring

/-- The bias-corrected variance vanishes exactly if all distances are sums of two radii. -/
theorem uDvar_eq_zero_iff (hn : 3 < n) {a : Fin n → Fin n → ℝ} (ha : ∀ i j, a i j = a j i) (ha0 : ∀ i, a i i = 0) :
    uDcovSqr a a = 0 ↔ ∃ r : Fin n → ℝ, ∀ i j, i ≠ j → a i j = r i + r j := by
  have h3 : (3 : ℝ) < n := by exact_mod_cast hn
  constructor
  · intro h
    have hpos : (0 : ℝ) < n * (n - 3) := mul_pos (by linarith) (by linarith)
    unfold uDcovSqr uInner at h
    rw [div_eq_zero_iff, or_iff_left hpos.ne'] at h
    have hz : ∀ i j, i ≠ j → uCentre a i j = 0 := by
      intro i j hij
      have h1 := (sum_eq_zero_iff_of_nonneg fun i _ => sum_nonneg fun j _ => mul_self_nonneg (uCentre a i j)).1 h i (mem_univ i)
      have h2 := (sum_eq_zero_iff_of_nonneg fun j _ => mul_self_nonneg (uCentre a i j)).1 h1 j
        (mem_filter.2 ⟨mem_univ j, hij.symm⟩)
      exact mul_self_eq_zero.1 h2
    refine ⟨fun i => (∑ k, a i k) / (n - 2) - (∑ k, ∑ l, a k l) / ((n - 1) * (n - 2)) / 2, fun i j hij => ?_⟩
    have h1 := hz i j hij
    rw [uCentre, if_neg hij] at h1
    have hc : ∑ k, a k j = ∑ k, a j k := sum_congr rfl fun k _ => ha k j
    rw [hc] at h1
    linarith
  · rintro ⟨r, hr⟩
    have e : uCentre a = uCentre fun _ _ => 0 :=
      uCentre_add_radii (by omega) (fun _ => rfl) ha0 r fun i j hij => by rw [hr i j hij]; ring
    unfold uDcovSqr
    rw [e]
    simp [uInner, uCentre]

/-- Numbers whose distances are sums of two radii: all but a smallest and a largest one are equal. -/
theorem radii_iff (hn : 3 < n) (v : Fin n → ℝ) :
    (∃ r : Fin n → ℝ, ∀ i j, i ≠ j → |v i - v j| = r i + r j) ↔
      ∃ i j c, i ≠ j ∧ v i ≤ c ∧ c ≤ v j ∧ ∀ k, k ≠ i → k ≠ j → v k = c := by
  constructor
  · rintro ⟨r, hr⟩
    have : Nonempty (Fin n) := ⟨⟨0, by omega⟩⟩
    obtain ⟨i, -, hi⟩ := exists_min_image univ v univ_nonempty
    have hne : (univ.erase i).Nonempty := by
      rw [← card_pos, card_erase_of_mem (mem_univ i), card_univ, Fintype.card_fin]; omega
    obtain ⟨j, hj, hjmax⟩ := exists_max_image (univ.erase i) v hne
    have hij : j ≠ i := (mem_erase.1 hj).1
    have hne2 : ((univ.erase i).erase j).Nonempty := by
      rw [← card_pos, card_erase_of_mem hj, card_erase_of_mem (mem_univ i), card_univ, Fintype.card_fin]; omega
    obtain ⟨k, hk⟩ := hne2
    have hkj := (mem_erase.1 hk).1
    have hki := (mem_erase.1 (mem_erase.1 hk).2).1
    have key : ∀ k l, k ≠ i → k ≠ j → l ≠ i → l ≠ j → v k ≤ v l → v k = v l := by
      intro k l hki hkj hli hlj hkl
      by_cases e : k = l
      · rw [e]
      · have h1 := hr l i hli
        have h2 := hr j k (Ne.symm hkj)
        have h3 := hr k i hki
        have h4 := hr j l (Ne.symm hlj)
        rw [abs_of_nonneg (by linarith [hi l (mem_univ l)])] at h1
        rw [abs_of_nonneg (by linarith [hjmax k (mem_erase.2 ⟨hki, mem_univ k⟩)])] at h2
        rw [abs_of_nonneg (by linarith [hi k (mem_univ k)])] at h3
        rw [abs_of_nonneg (by linarith [hjmax l (mem_erase.2 ⟨hli, mem_univ l⟩)])] at h4
        linarith
    refine ⟨i, j, v k, hij.symm, hi k (mem_univ k), hjmax k (mem_erase.2 ⟨hki, mem_univ k⟩), fun l hli hlj => ?_⟩
    rcases le_total (v l) (v k) with h | h
    · exact key l k hli hlj hki hkj h
    · exact (key k l hki hkj hli hlj h).symm
  · rintro ⟨i, j, c, hij, hi, hj, hc⟩
    refine ⟨fun k => |v k - c|, fun k l hkl => ?_⟩
    show |v k - v l| = |v k - c| + |v l - c|
    by_cases h1 : k ≠ i ∧ k ≠ j
    · rw [hc k h1.1 h1.2, sub_self, abs_zero, zero_add, abs_sub_comm]
    by_cases h2 : l ≠ i ∧ l ≠ j
    · rw [hc l h2.1 h2.2, sub_self, abs_zero, add_zero]
    have h : (k = i ∧ l = j) ∨ (k = j ∧ l = i) := by
      by_cases a : k = i <;> by_cases b : k = j <;> by_cases d : l = i <;> by_cases e : l = j <;>
        simp_all
    rcases h with ⟨rfl, rfl⟩ | ⟨rfl, rfl⟩
    · rw [abs_of_nonpos (by linarith), abs_of_nonpos (by linarith), abs_of_nonneg (by linarith)]; ring
    · rw [abs_of_nonneg (by linarith), abs_of_nonneg (by linarith), abs_of_nonpos (by linarith)]; ring

end Dcor.Spec

/-
How small permutation p-values are on average, if the average of the permuted statistics is known.
-/
import Verif.Proofs.Average
import Verif.Proofs.Exchange
import Verif.Proofs.EnergySpec
import Verif.Proofs.Nonneg
import Verif.Spec.EnergyTest
import Verif.Spec.Tests

namespace Dcor

open Finset

section Count

variable {G : Type} [Fintype G] {B : ℕ}

/-- Markov's inequality. -/
theorem card_above_le {t : G → ℝ} (h : ∀ g, 0 ≤ t g) (t0 : ℝ) :
    ((univ.filter fun g => t0 < t g).card : ℝ) * t0 ≤ ∑ g, t g := by
  rw [← nsmul_eq_mul]
  calc (univ.filter fun g => t0 < t g).card • t0 ≤ ∑ g ∈ univ.filter (fun g => t0 < t g), t g :=
        card_nsmul_le_sum _ _ _ fun g hg => (mem_filter.1 hg).2.le
    _ ≤ ∑ g, t g := sum_le_sum_of_subset_of_nonneg (filter_subset _ _) fun g _ _ => h g

/-- A sum over all sequences of something that depends on one of the elements. -/
theorem sum_at (φ : G → ℝ) (i : Fin B) :
    Fintype.card G * ∑ σ : Fin B → G, φ (σ i) = Fintype.card G ^ B * ∑ g, φ g := by
  classical
  have e : ∑ σ : Fin B → G, φ (σ i) = ∑ r : G × ({j // j ≠ i} → G), φ r.1 :=
    Fintype.sum_equiv (Equiv.funSplitAt i G) _ _ fun σ => rfl
  have hB : B ≠ 0 := by rintro rfl; exact i.elim0
  rw [e, Fintype.sum_prod_type]
  simp only [sum_const, card_univ, Fintype.card_fun, nsmul_eq_mul, Fintype.card_subtype_compl, Fintype.card_fin,
    Fintype.card_subtype_eq, Nat.cast_pow]
  rw [← mul_sum, ← mul_assoc, ← pow_succ', Nat.sub_add_cancel (Nat.one_le_iff_ne_zero.2 hB)]

open Classical in
theorem countAbove_fin {t0 : ℝ} {f : ℕ → FP ℝ} {v : Fin B → ℝ} (hf : ∀ i : Fin B, f i = .fin (v i)) :
    Spec.countAbove (.fin t0) f B = (univ.filter fun i => t0 < v i).card := by
  unfold Spec.countAbove
  rw [← card_map Fin.valEmbedding (s := univ.filter fun i => t0 < v i)]
  congr 1
  ext i
  simp only [mem_filter, mem_range, mem_map, mem_univ, true_and, Fin.valEmbedding_apply]
  constructor
  · rintro ⟨hi, h⟩
    refine ⟨⟨i, hi⟩, ?_, rfl⟩
    rw [hf ⟨i, hi⟩] at h
    exact h
  · rintro ⟨j, h, rfl⟩
    refine ⟨j.2, ?_⟩
    rw [hf j]
    exact h

variable {t : G → ℝ} {t0 : ℝ} {pv : (Fin B → G) → ℝ}

/-- The average of the p-values over all sequences of resamples. -/
theorem sum_pvalues (hpv : ∀ σ, ∃ f : ℕ → FP ℝ, (∀ i : Fin B, f i = .fin (t (σ i))) ∧
      pv σ = Spec.permPvalue (.fin t0) f B) :
    (B + 1) * (Fintype.card G * ∑ σ, pv σ)
      = Fintype.card G ^ B * (Fintype.card G + B * (univ.filter fun g => t0 < t g).card) := by
  classical
  have hB : (B : ℝ) + 1 ≠ 0 := by positivity
  have e : ∀ σ, (B + 1) * pv σ = (∑ i, if t0 < t (σ i) then (1 : ℝ) else 0) + 1 := by
    intro σ
    obtain ⟨f, hf, hp⟩ := hpv σ
    rw [hp, Spec.permPvalue, countAbove_fin hf, mul_div_cancel₀ _ hB, sum_boole]
  rw [mul_left_comm, mul_sum, sum_congr rfl fun σ _ => e σ, sum_add_distrib, sum_comm, mul_add, mul_sum,
    sum_congr rfl fun i _ => sum_at (fun g => if t0 < t g then (1 : ℝ) else 0) i]
  simp only [sum_const, card_univ, Fintype.card_fun, Fintype.card_fin, nsmul_eq_mul, sum_boole, mul_one, Nat.cast_pow]
  ring

/-- Average p-value if it is known how many statistics are larger. -/
theorem average_pvalue_le_of_count [Nonempty G] (hpv : ∀ σ, ∃ f : ℕ → FP ℝ, (∀ i : Fin B, f i = .fin (t (σ i))) ∧
      pv σ = Spec.permPvalue (.fin t0) f B) {c : ℝ}
    (h3 : ((univ.filter fun g => t0 < t g).card : ℝ) ≤ c * Fintype.card G) :
    (∑ σ, pv σ) / Fintype.card G ^ B ≤ (1 + B * c) / (B + 1) := by
  have hG : (0 : ℝ) < Fintype.card G := by exact_mod_cast Fintype.card_pos
  have hB : (0 : ℝ) < (B : ℝ) + 1 := by positivity
  have h1 := sum_pvalues hpv
  rw [div_le_div_iff₀ (by positivity) hB]
  refine le_of_mul_le_mul_left ?_ hG
  have h4 : (Fintype.card G : ℝ) * ((∑ σ, pv σ) * (B + 1))
      = Fintype.card G ^ B * (Fintype.card G + B * (univ.filter fun g => t0 < t g).card) := by
    rw [← h1]; ring
  rw [h4]
  have h5 : (B : ℝ) * (univ.filter fun g => t0 < t g).card ≤ B * (c * Fintype.card G) :=
    mul_le_mul_of_nonneg_left h3 (by positivity)
  have h6 : (0 : ℝ) ≤ (Fintype.card G : ℝ) ^ B := by positivity
  nlinarith [mul_le_mul_of_nonneg_left h5 h6]

open Classical in
/-- How often the p-value is not the smallest possible one. -/
theorem not_smallest_le_of_count [Nonempty G] (hpv : ∀ σ, ∃ f : ℕ → FP ℝ, (∀ i : Fin B, f i = .fin (t (σ i))) ∧
      pv σ = Spec.permPvalue (.fin t0) f B) {c : ℝ}
    (h3 : ((univ.filter fun g => t0 < t g).card : ℝ) ≤ c * Fintype.card G) :
    ((univ.filter fun σ => pv σ ≠ 1 / ((B : ℝ) + 1)).card : ℝ) / Fintype.card G ^ B ≤ B * c := by
  have hB : (0 : ℝ) < (B : ℝ) + 1 := by positivity
  have key : ∀ σ, (if pv σ ≠ 1 / ((B : ℝ) + 1) then (1 : ℝ) else 0) ≤ (B + 1) * pv σ - 1 := by
    intro σ
    obtain ⟨f, hf, hp⟩ := hpv σ
    have e : (B + 1) * pv σ - 1 = Spec.countAbove (.fin t0) f B := by
      rw [hp, Spec.permPvalue, mul_div_cancel₀ _ hB.ne']; ring
    rw [e]
    split_ifs with h
    · have : Spec.countAbove (.fin t0) f B ≠ 0 := by
        intro hc
        refine h ?_
        rw [hp, Spec.permPvalue, hc]
        simp
      exact_mod_cast Nat.one_le_iff_ne_zero.2 this
    · positivity
  have hG : (0 : ℝ) < (Fintype.card G : ℝ) ^ B := by
    have : (0 : ℝ) < Fintype.card G := by exact_mod_cast Fintype.card_pos
    positivity
  have h1 := average_pvalue_le_of_count hpv (by convert h3)
  have h2 : ((univ.filter fun σ => pv σ ≠ 1 / ((B : ℝ) + 1)).card : ℝ)
      ≤ (B + 1) * (∑ σ, pv σ) - Fintype.card G ^ B := by
    rw [← sum_boole]
    refine (sum_le_sum fun σ _ => key σ).trans (le_of_eq ?_)
    rw [sum_sub_distrib, ← mul_sum]
    simp
  rw [div_le_iff₀ hG]
  rw [div_le_div_iff₀ hG hB] at h1
  linarith

open Classical in
/-- How often the p-value is not one. -/
theorem not_one_le_of_count [Nonempty G] (hpv : ∀ σ, ∃ f : ℕ → FP ℝ, (∀ i : Fin B, f i = .fin (t (σ i))) ∧
      pv σ = Spec.permPvalue (.fin t0) f B) {c : ℝ}
    (h3 : ((univ.filter fun g => t g ≤ t0).card : ℝ) ≤ c * Fintype.card G) :
    ((univ.filter fun σ => pv σ ≠ 1).card : ℝ) / Fintype.card G ^ B ≤ B * c := by
  have hB : (0 : ℝ) < (B : ℝ) + 1 := by positivity
  have hG : (0 : ℝ) < Fintype.card G := by exact_mod_cast Fintype.card_pos
  have key : ∀ σ, (if pv σ ≠ 1 then (1 : ℝ) else 0) ≤ (B + 1) - (B + 1) * pv σ := by
    intro σ
    obtain ⟨f, hf, hp⟩ := hpv σ
    have e : (B + 1) - (B + 1) * pv σ = B - Spec.countAbove (.fin t0) f B := by
      rw [hp, Spec.permPvalue, mul_div_cancel₀ _ hB.ne']; ring
    have hle : Spec.countAbove (.fin t0) f B ≤ B := by
      rw [countAbove_fin hf]
      exact (card_le_univ _).trans (by rw [Fintype.card_fin])
    rw [e]
    split_ifs with h
    · have : Spec.countAbove (.fin t0) f B ≠ B := by
        intro hc
        refine h ?_
        rw [hp, Spec.permPvalue, hc, div_self hB.ne']
      have h4 : Spec.countAbove (.fin t0) f B + 1 ≤ B := by omega
      have h5 : (Spec.countAbove (.fin t0) f B : ℝ) + 1 ≤ B := by exact_mod_cast h4
      linarith
    · have h5 : (Spec.countAbove (.fin t0) f B : ℝ) ≤ B := by exact_mod_cast hle
      linarith
  have h1 := sum_pvalues hpv
  have h2 : ((univ.filter fun σ => pv σ ≠ 1).card : ℝ) ≤ (B + 1) * Fintype.card G ^ B - (B + 1) * ∑ σ, pv σ := by
    rw [← sum_boole]
    refine (sum_le_sum fun σ _ => key σ).trans (le_of_eq ?_)
    rw [sum_sub_distrib, ← mul_sum]
    simp
    ring
  have h4 : ((univ.filter fun g => t0 < t g).card : ℝ) + ((univ.filter fun g => t g ≤ t0).card : ℝ)
      = Fintype.card G := by
    have := card_filter_add_card_filter_not (s := (univ : Finset G)) (fun g => t0 < t g)
    simp only [not_lt] at this
    rw [← Finset.card_univ]
    exact_mod_cast this
  rw [div_le_iff₀ (by positivity)]
  refine h2.trans ?_
  refine le_of_mul_le_mul_left ?_ hG
  have h5 : (Fintype.card G : ℝ) * ((B + 1) * Fintype.card G ^ B - (B + 1) * ∑ σ, pv σ)
      = Fintype.card G ^ B * (B * (univ.filter fun g => t g ≤ t0).card) := by
    have : (Fintype.card G : ℝ) * ((B + 1) * Fintype.card G ^ B - (B + 1) * ∑ σ, pv σ)
        = (B + 1) * Fintype.card G * Fintype.card G ^ B - (B + 1) * (Fintype.card G * ∑ σ, pv σ) := by ring
    rw [this, h1, ← h4]
    ring
  rw [h5]
  have h6 : (0 : ℝ) ≤ (Fintype.card G : ℝ) ^ B * B := by positivity
  nlinarith [mul_le_mul_of_nonneg_left h3 h6]

theorem card_above_le_of_mean [Nonempty G] (ht : ∀ g, 0 ≤ t g) (h0 : 0 < t0) {m : ℝ}
    (hm : (∑ g, t g) / Fintype.card G = m) :
    ((univ.filter fun g => t0 < t g).card : ℝ) ≤ m / t0 * Fintype.card G := by
  have hG : (0 : ℝ) < Fintype.card G := by exact_mod_cast Fintype.card_pos
  have h2 := card_above_le ht t0
  rw [div_eq_iff hG.ne'] at hm
  rw [hm] at h2
  rw [div_mul_eq_mul_div, le_div_iff₀ h0]
  exact h2

/-- Average p-value if the statistics are not negative and have a known average. -/
theorem average_pvalue_le [Nonempty G] (hpv : ∀ σ, ∃ f : ℕ → FP ℝ, (∀ i : Fin B, f i = .fin (t (σ i))) ∧
      pv σ = Spec.permPvalue (.fin t0) f B) (ht : ∀ g, 0 ≤ t g) (h0 : 0 < t0) {m : ℝ}
    (hm : (∑ g, t g) / Fintype.card G = m) :
    (∑ σ, pv σ) / Fintype.card G ^ B ≤ (1 + B * (m / t0)) / (B + 1) :=
  average_pvalue_le_of_count hpv (card_above_le_of_mean ht h0 hm)

open Classical in
/-- How often the p-value is not the smallest possible one. -/
theorem not_smallest_le [Nonempty G] (hpv : ∀ σ, ∃ f : ℕ → FP ℝ, (∀ i : Fin B, f i = .fin (t (σ i))) ∧
      pv σ = Spec.permPvalue (.fin t0) f B) (ht : ∀ g, 0 ≤ t g) (h0 : 0 < t0) {m : ℝ}
    (hm : (∑ g, t g) / Fintype.card G = m) :
    ((univ.filter fun σ => pv σ ≠ 1 / ((B : ℝ) + 1)).card : ℝ) / Fintype.card G ^ B ≤ B * (m / t0) :=
  not_smallest_le_of_count hpv (by convert card_above_le_of_mean ht h0 hm)

/-- Cantelli's inequality: how many numbers with average zero are not below a positive number. -/
theorem card_above_le_of_variance [Nonempty G] (h0 : 0 < t0) (hm : ∑ g, t g = 0) {V : ℝ}
    (hV : (∑ g, t g ^ 2) / Fintype.card G = V) :
    ((univ.filter fun g => t0 ≤ t g).card : ℝ) ≤ 1 / (1 + t0 ^ 2 / V) * Fintype.card G := by
  have hG : (0 : ℝ) < Fintype.card G := by exact_mod_cast Fintype.card_pos
  have hV0 : 0 ≤ V := by
    rw [← hV]
    exact div_nonneg (sum_nonneg fun g _ => sq_nonneg _) hG.le
  rcases hV0.eq_or_lt with h | hVp
  · rw [← h, div_zero, add_zero, div_one, one_mul]
    exact_mod_cast card_le_univ _
  rw [div_eq_iff hG.ne'] at hV
  have h1 : ((univ.filter fun g => t0 ≤ t g).card : ℝ) * (t0 ^ 2 + V) ^ 2 ≤ ∑ g, (t0 * t g + V) ^ 2 := by
    rw [← nsmul_eq_mul]
    calc (univ.filter fun g => t0 ≤ t g).card • (t0 ^ 2 + V) ^ 2
        ≤ ∑ g ∈ univ.filter (fun g => t0 ≤ t g), (t0 * t g + V) ^ 2 := by
          refine card_nsmul_le_sum _ _ _ fun g hg => pow_le_pow_left₀ (by positivity) ?_ 2
          have := mul_le_mul_of_nonneg_left (mem_filter.1 hg).2 h0.le
          nlinarith
      _ ≤ ∑ g, (t0 * t g + V) ^ 2 :=
          sum_le_sum_of_subset_of_nonneg (filter_subset _ _) fun g _ _ => sq_nonneg _
  have h2 : ∑ g, (t0 * t g + V) ^ 2 = Fintype.card G * V * (t0 ^ 2 + V) := by
    have e (g : G) : (t0 * t g + V) ^ 2 = t0 ^ 2 * t g ^ 2 + 2 * t0 * V * t g + V ^ 2 := by ring
    rw [sum_congr rfl fun g _ => e g, sum_add_distrib, sum_add_distrib, ← mul_sum, ← mul_sum, hV, hm]
    simp
    ring
  have h3 : (1 : ℝ) / (1 + t0 ^ 2 / V) = V / (t0 ^ 2 + V) := by
    field_simp
    ring
  have h4 : (0 : ℝ) < t0 ^ 2 + V := by positivity
  rw [h3, div_mul_eq_mul_div, le_div_iff₀ h4]
  rw [h2] at h1
  refine le_of_mul_le_mul_right ?_ h4
  linarith

theorem card_gt_le_of_variance [Nonempty G] (h0 : 0 < t0) (hm : ∑ g, t g = 0) {V : ℝ}
    (hV : (∑ g, t g ^ 2) / Fintype.card G = V) :
    ((univ.filter fun g => t0 < t g).card : ℝ) ≤ 1 / (1 + t0 ^ 2 / V) * Fintype.card G := by
  refine le_trans ?_ (card_above_le_of_variance h0 hm hV)
  have h : (univ.filter fun g => t0 < t g) ⊆ univ.filter fun g => t0 ≤ t g := fun g hg =>
    mem_filter.2 ⟨mem_univ _, (mem_filter.1 hg).2.le⟩
  exact_mod_cast card_le_card h

/-- Cantelli's inequality on the other side. -/
theorem card_le_le_of_variance [Nonempty G] (h0 : t0 < 0) (hm : ∑ g, t g = 0) {V : ℝ}
    (hV : (∑ g, t g ^ 2) / Fintype.card G = V) :
    ((univ.filter fun g => t g ≤ t0).card : ℝ) ≤ 1 / (1 + t0 ^ 2 / V) * Fintype.card G := by
  have h := card_above_le_of_variance (t := fun g => - t g) (t0 := -t0) (V := V) (by linarith)
    (by rw [sum_neg_distrib, hm, neg_zero]) (by simpa only [neg_sq] using hV)
  simpa only [neg_le_neg_iff, neg_sq] using h

end Count

namespace Spec

variable {n k p q : ℕ} {α : ℝ}

/-- Average of the statistic of the distance covariance test over all permutations. -/
theorem dcovStat_perm_average (hn : 2 ≤ n) (hα : α ≠ 0) (X : Fin n → Fin p → ℝ) (Y : Fin n → Fin q → ℝ) :
    (∑ π : Equiv.Perm (Fin n), dcovStat α (fun i => X (π i)) Y) / Fintype.card (Equiv.Perm (Fin n))
      = n / (n - 1) * (crossMean α X X * crossMean α Y Y) := by
  have h := dcovSqr_perm_average hn (distMat α X) (distMat α Y) (distMat_diag hα X) (distMat_diag hα Y)
  unfold dcovStat
  rw [← mul_sum, mul_div_assoc, Fintype.card_perm, Fintype.card_fin]
  have e : ∀ π : Equiv.Perm (Fin n), dcovSqr (distMat α fun i => X (π i)) (distMat α Y)
      = dcovSqr (fun i j => distMat α X (π i) (π j)) (distMat α Y) := fun π => rfl
  rw [sum_congr rfl fun π _ => e π, h]
  unfold crossMean distMat
  rw [pow_two]
  ring

/-- Average over all relabellings of the mean distance between the observations of two samples. -/
theorem sum_relabel_cross {sz : Fin k → ℕ} (hsz : ∀ a, 0 < sz a) (W : (a : Fin k) → Fin (sz a) → Fin p → ℝ) {E : ℝ}
    (hE : ∀ i j, i ≠ j → permSum (distMat α (pooled W)) i j = E) {a b : Fin k} (hab : a ≠ b) :
    ∑ π, crossMean α (relabel W π a) (relabel W π b) = E := by
  have ha := hsz a
  have hb := hsz b
  have h := sum_perm_avg (ι := Fin (sz a) × Fin (sz b)) (A := distMat α (pooled W)) (E := E) (c := sz a * sz b)
    (e := fun l => finSigmaFinEquiv ⟨a, l.1⟩) (f := fun l => finSigmaFinEquiv ⟨b, l.2⟩)
    (fun l => hE _ _ fun h => hab (congrArg Sigma.fst (finSigmaFinEquiv.injective h)))
    (by simp) (by positivity)
  rw [← h]
  refine sum_congr rfl fun π _ => ?_
  rw [crossMean, ← univ_product_univ, sum_product]
  rfl

/-- Average over all relabellings of the mean distance within a sample. -/
theorem sum_relabel_self (hα : 0 < α) {sz : Fin k → ℕ} (hsz : ∀ a, 0 < sz a)
    (W : (a : Fin k) → Fin (sz a) → Fin p → ℝ) {E : ℝ}
    (hE : ∀ i j, i ≠ j → permSum (distMat α (pooled W)) i j = E) (a : Fin k) :
    ∑ π, crossMean α (relabel W π a) (relabel W π a) = E - E / sz a := by
  have he : Function.Injective fun i => finSigmaFinEquiv (n := sz) ⟨a, i⟩ := by
    intro i j h
    have := finSigmaFinEquiv.injective h
    simpa using this
  rcases Nat.lt_or_ge (sz a) 2 with h | h
  · have h1 : sz a = 1 := by have := hsz a; omega
    have e : ∀ π, crossMean α (relabel W π a) (relabel W π a) = 0 := by
      intro π
      unfold crossMean
      rw [sum_eq_zero, zero_div]
      intro i _
      refine sum_eq_zero fun j _ => ?_
      have : i = j := Fin.ext (by omega)
      rw [this, dist_self hα.ne']
    rw [sum_congr rfl fun π _ => e π, h1]
    simp
  · rw [sum_congr rfl fun π _ => crossMean_self h hα (relabel W π a), sum_sub_distrib, ← sum_div]
    have := sum_perm_pairMean h α (pooled W) he hE
    have e : ∑ π, pairMean α (relabel W π a) = E := this
    rw [e]

/-- Number of pairs of samples. -/
theorem sum_pairs_const (k : ℕ) (c : ℝ) :
    ∑ a : Fin k, ∑ _b ∈ univ.filter (a < ·), c = k * (k - 1) / 2 * c := by
  induction k with
  | zero => simp
  | succ k ih =>
    rw [Fin.sum_univ_succ]
    have hc : ∀ {m : ℕ} (a : Fin m), (univ.filter (a < ·)).card = m - 1 - a := by
      intro m a
      rw [show univ.filter (a < ·) = Ioi a by ext; simp, Fin.card_Ioi]
    have h0 : (univ.filter ((0 : Fin (k + 1)) < ·)).card = k := by
      rw [hc]
      simp
    have hs : ∀ a : Fin k, (univ.filter (a.succ < ·)).card = (univ.filter (a < ·)).card := by
      intro a
      rw [hc, hc, Fin.val_succ]
      omega
    simp only [sum_const, nsmul_eq_mul] at ih ⊢
    rw [h0, sum_congr rfl fun a _ => by rw [hs a], ih]
    push_cast
    ring

/-- Average of the statistic of the energy test over all relabellings of the pooled sample. -/
theorem energyTestVal_perm_average (hα : 0 < α) {sz : Fin k → ℕ} (hk : 2 ≤ k) (hsz : ∀ a, 0 < sz a)
    (W : (a : Fin k) → Fin (sz a) → Fin p → ℝ) :
    (∑ π, energyTestVal .v α (relabel W π)) / Fintype.card (Equiv.Perm (Fin (∑ a, sz a)))
      = k * (k - 1) / 2 * pairMean α (pooled W) := by
  obtain ⟨E, hE⟩ := exists_off α (pooled W)
  have hN : 2 ≤ ∑ a, sz a := by
    calc 2 ≤ k := hk
      _ = ∑ _a : Fin k, 1 := by simp
      _ ≤ ∑ a, sz a := sum_le_sum fun a _ => hsz a
  have e : ∀ a b : Fin k, a < b → ∑ π, (sz a : ℝ) * sz b / (sz a + sz b) * energyV α (relabel W π a) (relabel W π b) = E := by
    intro a b hab
    have ha : (0 : ℝ) < sz a := by exact_mod_cast hsz a
    have hb : (0 : ℝ) < sz b := by exact_mod_cast hsz b
    unfold energyV
    rw [← mul_sum, sum_sub_distrib, sum_sub_distrib, ← mul_sum, sum_relabel_cross hsz W hE hab.ne,
      sum_relabel_self hα hsz W hE a, sum_relabel_self hα hsz W hE b]
    field_simp
    ring
  have h : ∑ π, energyTestVal .v α (relabel W π) = k * (k - 1) / 2 * E := by
    unfold energyTestVal energyVal
    rw [sum_comm, ← sum_pairs_const]
    refine sum_congr rfl fun a _ => ?_
    rw [sum_comm]
    exact sum_congr rfl fun b hb => e a b (mem_filter.1 hb).2
  rw [h, Fintype.card_perm, Fintype.card_fin, mul_div_assoc, sum_off_eq α (pooled W) hN hE]

theorem energyTestVal_nonneg (hα : 0 ≤ α) (hα2 : α ≤ 2) {sz : Fin k → ℕ} (hsz : ∀ a, 0 < sz a)
    (W : (a : Fin k) → Fin (sz a) → Fin p → ℝ) : 0 ≤ energyTestVal .v α W := by
  unfold energyTestVal energyVal
  refine sum_nonneg fun a _ => sum_nonneg fun b _ => mul_nonneg (by positivity) ?_
  exact energyV_nonneg (hsz a) (hsz b) _ _ hα hα2

end Spec

end Dcor

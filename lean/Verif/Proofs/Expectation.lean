/-
Expectations of the sums of products of distances of independent observations.
-/
import Mathlib.Probability.Independence.Integration
import Verif.Proofs.CharacZero

namespace Dcor

open MeasureTheory ProbabilityTheory Finset

namespace Expectation

/-! ### Laws of a few observations -/

section Laws

variable {Ω S ι : Type*} {mΩ : MeasurableSpace Ω} {P : Measure Ω} [IsProbabilityMeasure P] [MeasurableSpace S]
  {μ : Measure S} [IsProbabilityMeasure μ] {Z : ι → Ω → S}

omit [IsProbabilityMeasure μ] in
theorem law_two (hm : ∀ i, Measurable (Z i)) (hl : ∀ i, P.map (Z i) = μ) {i j : ι} (hi : IndepFun (Z i) (Z j) P) :
    P.map (fun ω => (Z i ω, Z j ω)) = μ.prod μ := by
  rw [(indepFun_iff_map_prod_eq_prod_map_map (hm i).aemeasurable (hm j).aemeasurable).1 hi, hl, hl]

omit [IsProbabilityMeasure μ] in
theorem law_three (hm : ∀ i, Measurable (Z i)) (hl : ∀ i, P.map (Z i) = μ) (hi : iIndepFun Z P) {i j l : ι}
    (hij : i ≠ j) (hil : i ≠ l) (hjl : j ≠ l) :
    P.map (fun ω => ((Z j ω, Z l ω), Z i ω)) = (μ.prod μ).prod μ := by
  rw [(indepFun_iff_map_prod_eq_prod_map_map ((hm j).prodMk (hm l)).aemeasurable (hm i).aemeasurable).1
    (hi.indepFun_prodMk hm j l i hij.symm hil.symm), law_two hm hl (hi.indepFun hjl), hl]

omit [IsProbabilityMeasure μ] in
theorem law_four (hm : ∀ i, Measurable (Z i)) (hl : ∀ i, P.map (Z i) = μ) (hi : iIndepFun Z P) {i j k l : ι}
    (hij : i ≠ j) (hkl : k ≠ l) (hik : i ≠ k) (hil : i ≠ l) (hjk : j ≠ k) (hjl : j ≠ l) :
    P.map (fun ω => ((Z i ω, Z j ω), (Z k ω, Z l ω))) = (μ.prod μ).prod (μ.prod μ) := by
  rw [(indepFun_iff_map_prod_eq_prod_map_map ((hm i).prodMk (hm j)).aemeasurable ((hm k).prodMk (hm l)).aemeasurable).1
    (hi.indepFun_prodMk_prodMk hm i j k l hik hil hjk hjl), law_two hm hl (hi.indepFun hij),
    law_two hm hl (hi.indepFun hkl)]

omit [IsProbabilityMeasure P] in
/-- The expectation of a function of random variables with a known law. -/
theorem expect {T : Type*} [MeasurableSpace T] {W : Ω → T} (hW : Measurable W) {ν : Measure T} (h : P.map W = ν)
    {f : T → ℝ} (hf : Measurable f) (hi : Integrable f ν) :
    Integrable (fun ω => f (W ω)) P ∧ ∫ ω, f (W ω) ∂P = ∫ t, f t ∂ν := by
  subst h
  exact ⟨(integrable_map_measure hf.aestronglyMeasurable hW.aemeasurable).1 hi,
    (integral_map hW.aemeasurable hf.aestronglyMeasurable).symm⟩

end Laws

/-! ### Products of two kernels -/

section Kernels

variable {Ω S ι : Type*} {mΩ : MeasurableSpace Ω} {P : Measure Ω} [IsProbabilityMeasure P] [MeasurableSpace S]
  {μ : Measure S} [IsProbabilityMeasure μ] {Z : ι → Ω → S}

/-- A symmetric kernel that is zero on the diagonal and at most a product of weights. -/
structure Kernel (k : S → S → ℝ) (w : S → ℝ) : Prop where
  measurable : Measurable fun r : S × S => k r.1 r.2
  symm : ∀ z z', k z z' = k z' z
  diag : ∀ z, k z z = 0
  weight : Measurable w
  nonneg : ∀ z, 0 ≤ w z
  le : ∀ z z', |k z z'| ≤ w z * w z'

variable {k₁ k₂ : S → S → ℝ} {w₁ w₂ : S → ℝ}

omit [IsProbabilityMeasure μ] in
theorem Kernel.integrable (h₁ : Kernel k₁ w₁) (hw : Integrable w₁ μ) : Integrable (fun r : S × S => k₁ r.1 r.2) (μ.prod μ) :=
  (hw.mul_prod hw).mono' h₁.measurable.aestronglyMeasurable (Filter.Eventually.of_forall fun _ => h₁.le _ _)

/-- Both kernels at the same pair of observations. -/
theorem same_pair (hm : ∀ i, Measurable (Z i)) (hl : ∀ i, P.map (Z i) = μ) (hi : iIndepFun Z P) (h₁ : Kernel k₁ w₁)
    (h₂ : Kernel k₂ w₂) (hw : Integrable (fun z => w₁ z * w₂ z) μ) {i j : ι} (hij : i ≠ j) :
    Integrable (fun ω => k₁ (Z i ω) (Z j ω) * k₂ (Z i ω) (Z j ω)) P ∧
      ∫ ω, k₁ (Z i ω) (Z j ω) * k₂ (Z i ω) (Z j ω) ∂P = ∫ z, ∫ z', k₁ z z' * k₂ z z' ∂μ ∂μ := by
  have hf : Measurable fun r : S × S => k₁ r.1 r.2 * k₂ r.1 r.2 := h₁.measurable.mul h₂.measurable
  have hfi : Integrable (fun r : S × S => k₁ r.1 r.2 * k₂ r.1 r.2) (μ.prod μ) := by
    refine (hw.mul_prod hw).mono' hf.aestronglyMeasurable (Filter.Eventually.of_forall fun r => ?_)
    rw [Real.norm_eq_abs, abs_mul, mul_mul_mul_comm]
    exact mul_le_mul (h₁.le _ _) (h₂.le _ _) (abs_nonneg _) (mul_nonneg (h₁.nonneg _) (h₁.nonneg _))
  have h := expect ((hm i).prodMk (hm j)) (law_two hm hl (hi.indepFun hij)) hf hfi
  rw [integral_prod _ hfi] at h
  exact h

/-- The kernels at two pairs with one observation in common. -/
theorem common_one (hm : ∀ i, Measurable (Z i)) (hl : ∀ i, P.map (Z i) = μ) (hi : iIndepFun Z P) (h₁ : Kernel k₁ w₁)
    (h₂ : Kernel k₂ w₂) (hw₁ : Integrable w₁ μ) (hw₂ : Integrable w₂ μ) (hw : Integrable (fun z => w₁ z * w₂ z) μ)
    {i j l : ι} (hij : i ≠ j) (hil : i ≠ l) (hjl : j ≠ l) :
    Integrable (fun ω => k₁ (Z i ω) (Z j ω) * k₂ (Z i ω) (Z l ω)) P ∧
      ∫ ω, k₁ (Z i ω) (Z j ω) * k₂ (Z i ω) (Z l ω) ∂P = ∫ z, (∫ z', k₁ z z' ∂μ) * (∫ z', k₂ z z' ∂μ) ∂μ := by
  have hf : Measurable fun r : (S × S) × S => k₁ r.2 r.1.1 * k₂ r.2 r.1.2 :=
    (h₁.measurable.comp (by fun_prop : Measurable fun r : (S × S) × S => (r.2, r.1.1))).mul
      (h₂.measurable.comp (by fun_prop : Measurable fun r : (S × S) × S => (r.2, r.1.2)))
  have hfi : Integrable (fun r : (S × S) × S => k₁ r.2 r.1.1 * k₂ r.2 r.1.2) ((μ.prod μ).prod μ) := by
    refine ((hw₁.mul_prod hw₂).mul_prod hw).mono' hf.aestronglyMeasurable (Filter.Eventually.of_forall fun r => ?_)
    rw [Real.norm_eq_abs, abs_mul]
    refine (mul_le_mul (h₁.le _ _) (h₂.le _ _) (abs_nonneg _) (mul_nonneg (h₁.nonneg _) (h₁.nonneg _))).trans
      (le_of_eq ?_)
    ring
  have h := expect (((hm j).prodMk (hm l)).prodMk (hm i)) (law_three hm hl hi hij hil hjl) hf hfi
  rw [integral_prod_symm _ hfi] at h
  refine ⟨h.1, h.2.trans (integral_congr_ae (Filter.Eventually.of_forall fun z => ?_))⟩
  exact integral_prod_mul (fun z' => k₁ z z') fun z' => k₂ z z'

/-- The kernels at two pairs without a common observation. -/
theorem common_none (hm : ∀ i, Measurable (Z i)) (hl : ∀ i, P.map (Z i) = μ) (hi : iIndepFun Z P) (h₁ : Kernel k₁ w₁)
    (h₂ : Kernel k₂ w₂) (hw₁ : Integrable w₁ μ) (hw₂ : Integrable w₂ μ) {i j k l : ι}
    (hij : i ≠ j) (hkl : k ≠ l) (hik : i ≠ k) (hil : i ≠ l) (hjk : j ≠ k) (hjl : j ≠ l) :
    Integrable (fun ω => k₁ (Z i ω) (Z j ω) * k₂ (Z k ω) (Z l ω)) P ∧
      ∫ ω, k₁ (Z i ω) (Z j ω) * k₂ (Z k ω) (Z l ω) ∂P = (∫ z, ∫ z', k₁ z z' ∂μ ∂μ) * ∫ z, ∫ z', k₂ z z' ∂μ ∂μ := by
  have hf : Measurable fun r : (S × S) × (S × S) => k₁ r.1.1 r.1.2 * k₂ r.2.1 r.2.2 :=
    (h₁.measurable.comp measurable_fst).mul (h₂.measurable.comp measurable_snd)
  have i₁ := h₁.integrable hw₁
  have i₂ := h₂.integrable hw₂
  have h := expect (((hm i).prodMk (hm j)).prodMk ((hm k).prodMk (hm l))) (law_four hm hl hi hij hkl hik hil hjk hjl) hf
    (i₁.mul_prod i₂)
  refine ⟨h.1, h.2.trans ?_⟩
  rw [integral_prod_mul (fun r : S × S => k₁ r.1 r.2) fun r : S × S => k₂ r.1 r.2, integral_prod _ i₁, integral_prod _ i₂]

end Kernels

/-! ### Sums over all observations -/

/-- One for equal indices and zero otherwise. -/
def delta {n : ℕ} (i j : Fin n) : ℝ := if i = j then 1 else 0

/-- The expectation of a product of two kernels, for all four observations. -/
def pattern {n : ℕ} (A C M : ℝ) (i j k l : Fin n) : ℝ :=
  (1 - delta i j) * (1 - delta k l) * (M + (C - M) * (delta i k + delta i l + delta j k + delta j l)
    + (A - 2 * C + M) * (delta i k * delta j l + delta i l * delta j k))

section Sums

variable {n : ℕ}

theorem sum_delta (f : Fin n → ℝ) (i : Fin n) : ∑ l, delta i l * f l = f i := by
  simp [delta]

theorem sum_one_sub_delta (k : Fin n) : ∑ l, (1 - delta k l) = n - 1 := by
  rw [sum_sub_distrib]
  have := sum_delta (fun _ => (1 : ℝ)) k
  simp only [mul_one] at this
  rw [this]
  simp

theorem sum_delta_mul (i k : Fin n) : ∑ l, (1 - delta k l) * delta i l = 1 - delta k i := by
  have := sum_delta (fun l => 1 - delta k l) i
  rw [← this]
  exact sum_congr rfl fun l _ => mul_comm _ _

theorem delta_comm (i j : Fin n) : delta i j = delta j i := by
  unfold delta
  simp [eq_comm]

theorem pattern_sum_one (A C M : ℝ) (i j k : Fin n) : ∑ l, pattern A C M i j k l
    = (1 - delta i j) * ((n - 1) * (M + (C - M) * (delta i k + delta j k)) + (C - M) * (2 - delta i k - delta j k)
      + (A - 2 * C + M) * (delta i k * (1 - delta j k) + delta j k * (1 - delta i k))) := by
  have e : ∀ l, pattern A C M i j k l = (1 - delta i j) * ((M + (C - M) * (delta i k + delta j k)) * (1 - delta k l)
      + (C - M + (A - 2 * C + M) * delta j k) * ((1 - delta k l) * delta i l)
      + (C - M + (A - 2 * C + M) * delta i k) * ((1 - delta k l) * delta j l)) := by
    intro l
    unfold pattern
    ring
  simp only [e, ← mul_sum, sum_add_distrib, sum_one_sub_delta, sum_delta_mul, delta_comm k i, delta_comm k j]
  ring

theorem sum_delta_one (i : Fin n) : ∑ l, delta i l = 1 := by
  have := sum_delta (fun _ => (1 : ℝ)) i
  simpa using this

theorem delta_mul_one_sub (i j : Fin n) : (1 - delta i j) * delta i j = 0 := by
  unfold delta
  split_ifs <;> simp

theorem sum_delta_delta (i j : Fin n) : ∑ k, delta i k * delta j k = delta i j := by
  rw [sum_delta (fun k => delta j k) i, delta_comm]

theorem pattern_sum_two (A C M : ℝ) (i j : Fin n) : ∑ k, ∑ l, pattern A C M i j k l
    = (1 - delta i j) * ((n - 1) * (n * M + 2 * (C - M)) + (C - M) * (2 * n - 2) + 2 * (A - 2 * C + M)) := by
  simp only [pattern_sum_one]
  rw [← mul_sum]
  have e : ∀ k, ((n - 1) * (M + (C - M) * (delta i k + delta j k)) + (C - M) * (2 - delta i k - delta j k)
      + (A - 2 * C + M) * (delta i k * (1 - delta j k) + delta j k * (1 - delta i k)))
      = ((n : ℝ) - 1) * M + 2 * (C - M) + (((n : ℝ) - 1) * (C - M) - (C - M) + (A - 2 * C + M)) * delta i k
        + (((n : ℝ) - 1) * (C - M) - (C - M) + (A - 2 * C + M)) * delta j k
        - 2 * (A - 2 * C + M) * (delta i k * delta j k) := by
    intro k
    ring
  simp only [e, sum_sub_distrib, sum_add_distrib, ← mul_sum, sum_delta_one, sum_delta_delta, sum_const, card_univ,
    Fintype.card_fin, nsmul_eq_mul]
  have h := delta_mul_one_sub i j
  linear_combination (-2 * (A - 2 * C + M)) * h

theorem sum_sum_one_sub (c : ℝ) : ∑ i : Fin n, ∑ j : Fin n, (1 - delta i j) * c = n * (n - 1) * c := by
  simp only [← sum_mul, sum_one_sub_delta, sum_const, card_univ, Fintype.card_fin, nsmul_eq_mul]

theorem pattern_total (A C M : ℝ) : ∑ i : Fin n, ∑ j : Fin n, ∑ k : Fin n, ∑ l : Fin n, pattern A C M i j k l
    = n * (n - 1) * (2 * A + 4 * (n - 2) * C + (n - 2) * (n - 3) * M) := by
  simp only [pattern_sum_two, sum_sum_one_sub]
  ring

theorem pattern_rows (A C M : ℝ) : ∑ i : Fin n, ∑ j : Fin n, ∑ l : Fin n, pattern A C M i j i l
    = n * (n - 1) * (A + (n - 2) * C) := by
  have hd : ∀ i : Fin n, delta i i = 1 := fun i => by simp [delta]
  have e : ∀ i j : Fin n, ∑ l, pattern A C M i j i l = (1 - delta i j) * (A + (n - 2) * C) := by
    intro i j
    rw [pattern_sum_one, hd, delta_comm j i]
    have h := delta_mul_one_sub i j
    linear_combination ((n - 1) * (C - M) - (C - M) - (A - 2 * C + M)) * h
  simp only [e, sum_sum_one_sub]

theorem pattern_pairs (A C M : ℝ) : ∑ i : Fin n, ∑ j : Fin n, pattern A C M i j i j = n * (n - 1) * A := by
  have e : ∀ i j : Fin n, pattern A C M i j i j = (1 - delta i j) * A := by
    intro i j
    unfold pattern delta
    by_cases h : i = j
    · simp [h]
    · simp [h, Ne.symm h]
      ring
  simp only [e, sum_sum_one_sub]

end Sums

section Total

variable {Ω S : Type*} {mΩ : MeasurableSpace Ω} {P : Measure Ω} [IsProbabilityMeasure P] [MeasurableSpace S]
  {μ : Measure S} [IsProbabilityMeasure μ] {n : ℕ} {Z : Fin n → Ω → S} {k₁ k₂ : S → S → ℝ} {w₁ w₂ : S → ℝ}

theorem expect_pattern (hm : ∀ i, Measurable (Z i)) (hl : ∀ i, P.map (Z i) = μ) (hi : iIndepFun Z P)
    (h₁ : Kernel k₁ w₁) (h₂ : Kernel k₂ w₂) (hw₁ : Integrable w₁ μ) (hw₂ : Integrable w₂ μ)
    (hw : Integrable (fun z => w₁ z * w₂ z) μ) (i j k l : Fin n) :
    Integrable (fun ω => k₁ (Z i ω) (Z j ω) * k₂ (Z k ω) (Z l ω)) P ∧
      ∫ ω, k₁ (Z i ω) (Z j ω) * k₂ (Z k ω) (Z l ω) ∂P
        = pattern (∫ z, ∫ z', k₁ z z' * k₂ z z' ∂μ ∂μ) (∫ z, (∫ z', k₁ z z' ∂μ) * (∫ z', k₂ z z' ∂μ) ∂μ)
          ((∫ z, ∫ z', k₁ z z' ∂μ ∂μ) * ∫ z, ∫ z', k₂ z z' ∂μ ∂μ) i j k l := by
  unfold pattern delta
  by_cases hij : i = j
  · subst hij
    simp [h₁.diag]
  by_cases hkl : k = l
  · subst hkl
    simp [h₂.diag]
  by_cases hik : i = k
  · subst hik
    by_cases hjl : j = l
    · subst hjl
      obtain ⟨a, b⟩ := same_pair hm hl hi h₁ h₂ hw hij
      refine ⟨a, b.trans ?_⟩
      simp [hij, Ne.symm hij]
      ring
    · obtain ⟨a, b⟩ := common_one hm hl hi h₁ h₂ hw₁ hw₂ hw hij hkl hjl
      refine ⟨a, b.trans ?_⟩
      simp [hij, Ne.symm hij, hjl, hkl]
  by_cases hil : i = l
  · subst hil
    simp only [h₂.symm (Z k _) (Z i _)]
    by_cases hjk : j = k
    · subst hjk
      obtain ⟨a, b⟩ := same_pair hm hl hi h₁ h₂ hw hij
      refine ⟨a, b.trans ?_⟩
      simp [hij, Ne.symm hij]
      ring
    · obtain ⟨a, b⟩ := common_one hm hl hi h₁ h₂ hw₁ hw₂ hw hij hik hjk
      refine ⟨a, b.trans ?_⟩
      simp [hij, Ne.symm hij, hjk, hkl, hik]
  by_cases hjk : j = k
  · subst hjk
    simp only [h₁.symm (Z i _) (Z j _)]
    obtain ⟨a, b⟩ := common_one hm hl hi h₁ h₂ hw₁ hw₂ hw (Ne.symm hij) hkl hil
    refine ⟨a, b.trans ?_⟩
    simp [hij, hil, hkl]
  by_cases hjl : j = l
  · subst hjl
    simp only [h₁.symm (Z i _) (Z j _), h₂.symm (Z k _) (Z j _)]
    obtain ⟨a, b⟩ := common_one hm hl hi h₁ h₂ hw₁ hw₂ hw (Ne.symm hij) hjk hik
    refine ⟨a, b.trans ?_⟩
    simp [hij, hik, hjk, hkl]
  obtain ⟨a, b⟩ := common_none hm hl hi h₁ h₂ hw₁ hw₂ hij hkl hik hil hjk hjl
  refine ⟨a, b.trans ?_⟩
  simp [hij, hik, hjk, hkl, hil, hjl]

/-- The expectations of the three sums of which the estimators consist. -/
theorem expect_sums (hm : ∀ i, Measurable (Z i)) (hl : ∀ i, P.map (Z i) = μ) (hi : iIndepFun Z P)
    (h₁ : Kernel k₁ w₁) (h₂ : Kernel k₂ w₂) (hw₁ : Integrable w₁ μ) (hw₂ : Integrable w₂ μ)
    (hw : Integrable (fun z => w₁ z * w₂ z) μ) {A C M : ℝ} (hA : A = ∫ z, ∫ z', k₁ z z' * k₂ z z' ∂μ ∂μ)
    (hC : C = ∫ z, (∫ z', k₁ z z' ∂μ) * (∫ z', k₂ z z' ∂μ) ∂μ)
    (hM : M = (∫ z, ∫ z', k₁ z z' ∂μ ∂μ) * ∫ z, ∫ z', k₂ z z' ∂μ ∂μ) :
    (Integrable (fun ω => ∑ i, ∑ j, k₁ (Z i ω) (Z j ω) * k₂ (Z i ω) (Z j ω)) P ∧
      ∫ ω, ∑ i, ∑ j, k₁ (Z i ω) (Z j ω) * k₂ (Z i ω) (Z j ω) ∂P = n * (n - 1) * A) ∧
    (Integrable (fun ω => ∑ i, (∑ j, k₁ (Z i ω) (Z j ω)) * (∑ j, k₂ (Z i ω) (Z j ω))) P ∧
      ∫ ω, ∑ i, (∑ j, k₁ (Z i ω) (Z j ω)) * (∑ j, k₂ (Z i ω) (Z j ω)) ∂P = n * (n - 1) * (A + (n - 2) * C)) ∧
    Integrable (fun ω => (∑ i, ∑ j, k₁ (Z i ω) (Z j ω)) * (∑ i, ∑ j, k₂ (Z i ω) (Z j ω))) P ∧
      ∫ ω, (∑ i, ∑ j, k₁ (Z i ω) (Z j ω)) * (∑ i, ∑ j, k₂ (Z i ω) (Z j ω)) ∂P
        = n * (n - 1) * (2 * A + 4 * (n - 2) * C + (n - 2) * (n - 3) * M) := by
  have h : ∀ i j k l, Integrable (fun ω => k₁ (Z i ω) (Z j ω) * k₂ (Z k ω) (Z l ω)) P ∧
      ∫ ω, k₁ (Z i ω) (Z j ω) * k₂ (Z k ω) (Z l ω) ∂P = pattern A C M i j k l := by
    rw [hA, hC, hM]
    exact expect_pattern hm hl hi h₁ h₂ hw₁ hw₂ hw
  have e2 : ∀ ω, ∑ i, (∑ j, k₁ (Z i ω) (Z j ω)) * (∑ j, k₂ (Z i ω) (Z j ω))
      = ∑ i, ∑ j, ∑ l, k₁ (Z i ω) (Z j ω) * k₂ (Z i ω) (Z l ω) := fun ω =>
    sum_congr rfl fun i _ => by rw [sum_mul_sum]
  have e3 : ∀ ω, (∑ i, ∑ j, k₁ (Z i ω) (Z j ω)) * (∑ i, ∑ j, k₂ (Z i ω) (Z j ω))
      = ∑ i, ∑ j, ∑ k, ∑ l, k₁ (Z i ω) (Z j ω) * k₂ (Z k ω) (Z l ω) := fun ω => by
    rw [sum_mul]
    refine sum_congr rfl fun i _ => ?_
    rw [sum_mul]
    refine sum_congr rfl fun j _ => ?_
    rw [mul_sum]
    exact sum_congr rfl fun k _ => by rw [mul_sum]
  simp only [e2, e3]
  refine ⟨⟨integrable_finsetSum _ fun i _ => integrable_finsetSum _ fun j _ => (h i j i j).1, ?_⟩,
    ⟨integrable_finsetSum _ fun i _ => integrable_finsetSum _ fun j _ => integrable_finsetSum _ fun l _ => (h i j i l).1, ?_⟩,
    integrable_finsetSum _ fun i _ => integrable_finsetSum _ fun j _ => integrable_finsetSum _ fun k _ =>
      integrable_finsetSum _ fun l _ => (h i j k l).1, ?_⟩
  · rw [← pattern_pairs A C M, integral_finsetSum _ fun i _ => integrable_finsetSum _ fun j _ => (h i j i j).1]
    refine sum_congr rfl fun i _ => ?_
    rw [integral_finsetSum _ fun j _ => (h i j i j).1]
    exact sum_congr rfl fun j _ => (h i j i j).2
  · rw [← pattern_rows A C M, integral_finsetSum _ fun i _ => integrable_finsetSum _ fun j _ =>
      integrable_finsetSum _ fun l _ => (h i j i l).1]
    refine sum_congr rfl fun i _ => ?_
    rw [integral_finsetSum _ fun j _ => integrable_finsetSum _ fun l _ => (h i j i l).1]
    refine sum_congr rfl fun j _ => ?_
    rw [integral_finsetSum _ fun l _ => (h i j i l).1]
    exact sum_congr rfl fun l _ => (h i j i l).2
  · rw [← pattern_total A C M, integral_finsetSum _ fun i _ => integrable_finsetSum _ fun j _ =>
      integrable_finsetSum _ fun k _ => integrable_finsetSum _ fun l _ => (h i j k l).1]
    refine sum_congr rfl fun i _ => ?_
    rw [integral_finsetSum _ fun j _ => integrable_finsetSum _ fun k _ => integrable_finsetSum _ fun l _ => (h i j k l).1]
    refine sum_congr rfl fun j _ => ?_
    rw [integral_finsetSum _ fun k _ => integrable_finsetSum _ fun l _ => (h i j k l).1]
    refine sum_congr rfl fun k _ => ?_
    rw [integral_finsetSum _ fun l _ => (h i j k l).1]
    exact sum_congr rfl fun l _ => (h i j k l).2

end Total

/-! ### Distance covariance -/

section Dcov

variable {Ω : Type*} {mΩ : MeasurableSpace Ω} {P : Measure Ω} [IsProbabilityMeasure P] {p q n : ℕ} {α : ℝ}
  {μ : Measure ((Fin p → ℝ) × (Fin q → ℝ))} [IsProbabilityMeasure μ] {Z : Fin n → Ω → (Fin p → ℝ) × (Fin q → ℝ)}

theorem dist_kernel {S : Type*} [MeasurableSpace S] (hα : 0 < α) {r : ℕ} {f : S → Fin r → ℝ} (hf : Measurable f) :
    Kernel (fun z z' => Spec.dist α (f z) (f z')) fun z => Consistency.weight α (f z) where
  measurable := by
    have h := (Charac.dist_continuous (p := r) hα.le).measurable.comp
      (by fun_prop : Measurable fun r : S × S => (f r.1, f r.2))
    simp only [Function.comp_def] at h
    exact h
  symm _ _ := Spec.dist_symm _ _ _
  diag _ := Spec.dist_self hα.ne' _
  weight := (Consistency.weight_continuous hα.le).measurable.comp hf
  nonneg _ := Consistency.weight_nonneg _
  le _ _ := by
    rw [abs_of_nonneg (Consistency.dist_nonneg _ _)]
    exact Charac.dist_le hα.le _ _

/-- The expectations of the estimators, for the three expectations of which the distance covariance consists. -/
theorem dcov_expect (hα : 0 < α) (hm : ∀ i, Measurable (Z i)) (hl : ∀ i, P.map (Z i) = μ) (hi : iIndepFun Z P)
    (hμ : Spec.Moments α μ) {A C M : ℝ} (hA : A = ∫ z, ∫ z', Spec.dist α z.1 z'.1 * Spec.dist α z.2 z'.2 ∂μ ∂μ)
    (hC : C = ∫ z, (∫ z', Spec.dist α z.1 z'.1 ∂μ) * (∫ z', Spec.dist α z.2 z'.2 ∂μ) ∂μ)
    (hM : M = (∫ z, ∫ z', Spec.dist α z.1 z'.1 ∂μ ∂μ) * ∫ z, ∫ z', Spec.dist α z.2 z'.2 ∂μ ∂μ) :
    (3 < n → Integrable (fun ω => Spec.uDcovSqr (Spec.distMat α fun i => (Z i ω).1) (Spec.distMat α fun i => (Z i ω).2)) P ∧
      ∫ ω, Spec.uDcovSqr (Spec.distMat α fun i => (Z i ω).1) (Spec.distMat α fun i => (Z i ω).2) ∂P = A + M - 2 * C) ∧
    (0 < n → Integrable (fun ω => Spec.dcovSqr (Spec.distMat α fun i => (Z i ω).1) (Spec.distMat α fun i => (Z i ω).2)) P ∧
      ∫ ω, Spec.dcovSqr (Spec.distMat α fun i => (Z i ω).1) (Spec.distMat α fun i => (Z i ω).2) ∂P
        = (n - 1) / n ^ 3 * (((n - 1) ^ 2 + 1) * A + (n - 2) * (n - 3) * M - 2 * (n - 2) ^ 2 * C)) := by
  obtain ⟨⟨i1, v1⟩, ⟨i2, v2⟩, i3, v3⟩ := expect_sums hm hl hi (dist_kernel hα measurable_fst) (dist_kernel hα measurable_snd)
    (Consistency.weight_integrable_fst hα.le hμ) (Consistency.weight_integrable_snd hα.le hμ)
    (Consistency.weight_integrable_prod hα.le hμ) hA hC hM
  constructor
  · intro hn
    have h3 : (3 : ℝ) < n := by exact_mod_cast hn
    have e0 : (n : ℝ) ≠ 0 := by linarith
    have e1 : (n : ℝ) - 1 ≠ 0 := by linarith
    have e2 : (n : ℝ) - 2 ≠ 0 := by linarith
    have e3 : (n : ℝ) - 3 ≠ 0 := by linarith
    have e : ∀ ω, Spec.uDcovSqr (Spec.distMat α fun i => (Z i ω).1) (Spec.distMat α fun i => (Z i ω).2)
        = 1 / ((n : ℝ) * (n - 3)) * (∑ i, ∑ j, Spec.dist α (Z i ω).1 (Z j ω).1 * Spec.dist α (Z i ω).2 (Z j ω).2)
          - 2 * (1 / ((n : ℝ) * (n - 2) * (n - 3)) * ∑ i, (∑ j, Spec.dist α (Z i ω).1 (Z j ω).1)
            * (∑ j, Spec.dist α (Z i ω).2 (Z j ω).2))
          + 1 / ((n : ℝ) * (n - 1) * (n - 2) * (n - 3)) * ((∑ i, ∑ j, Spec.dist α (Z i ω).1 (Z j ω).1)
            * (∑ i, ∑ j, Spec.dist α (Z i ω).2 (Z j ω).2)) := by
      intro ω
      rw [Spec.uDcovSqr_eq_terms _ _ (Spec.distMat_symm _ _) (Spec.distMat_symm _ _)
        (fun i => Spec.dist_self hα.ne' _) (fun i => Spec.dist_self hα.ne' _) hn]
      simp only [Spec.distMat]
      field_simp
    simp only [e]
    refine ⟨((i1.const_mul _).sub ((i2.const_mul _).const_mul 2)).add (i3.const_mul _), ?_⟩
    rw [Charac.integral_sub_two_add (i1.const_mul _) (i2.const_mul _) (i3.const_mul _), integral_const_mul,
      integral_const_mul, integral_const_mul, v1, v2, v3]
    field_simp
    ring
  · intro hn
    have e0 : (n : ℝ) ≠ 0 := by positivity
    have e : ∀ ω, Spec.dcovSqr (Spec.distMat α fun i => (Z i ω).1) (Spec.distMat α fun i => (Z i ω).2)
        = 1 / (n : ℝ) ^ 2 * (∑ i, ∑ j, Spec.dist α (Z i ω).1 (Z j ω).1 * Spec.dist α (Z i ω).2 (Z j ω).2)
          - 2 * (1 / (n : ℝ) ^ 3 * ∑ i, (∑ j, Spec.dist α (Z i ω).1 (Z j ω).1)
            * (∑ j, Spec.dist α (Z i ω).2 (Z j ω).2))
          + 1 / (n : ℝ) ^ 4 * ((∑ i, ∑ j, Spec.dist α (Z i ω).1 (Z j ω).1)
            * (∑ i, ∑ j, Spec.dist α (Z i ω).2 (Z j ω).2)) := by
      intro ω
      rw [Spec.dcovSqr_eq_terms _ _ (Spec.distMat_symm _ _) (Spec.distMat_symm _ _) hn]
      simp only [Spec.distMat]
      field_simp
    simp only [e]
    refine ⟨((i1.const_mul _).sub ((i2.const_mul _).const_mul 2)).add (i3.const_mul _), ?_⟩
    rw [Charac.integral_sub_two_add (i1.const_mul _) (i2.const_mul _) (i3.const_mul _), integral_const_mul,
      integral_const_mul, integral_const_mul, v1, v2, v3]
    field_simp
    ring

end Dcov

/-! ### Energy distance -/

section Energy

variable {Ω : Type*} {mΩ : MeasurableSpace Ω} {P : Measure Ω} [IsProbabilityMeasure P] {p n m : ℕ} {α : ℝ}
  {μ ν : Measure (Fin p → ℝ)} [IsProbabilityMeasure μ] [IsProbabilityMeasure ν] {X : Fin n → Ω → Fin p → ℝ}
  {Y : Fin m → Ω → Fin p → ℝ}

omit [IsProbabilityMeasure μ] [IsProbabilityMeasure ν] in
theorem dist_expect (hα : 0 < α) [IsProbabilityMeasure μ] [IsProbabilityMeasure ν] {x y : Ω → Fin p → ℝ} (hx : Measurable x)
    (hy : Measurable y) (hlx : P.map x = μ) (hly : P.map y = ν) (hi : IndepFun x y P)
    (hμ : Integrable (fun x => Spec.dist α x 0) μ) (hν : Integrable (fun x => Spec.dist α x 0) ν) :
    Integrable (fun ω => Spec.dist α (x ω) (y ω)) P ∧
      ∫ ω, Spec.dist α (x ω) (y ω) ∂P = ∫ x, ∫ y, Spec.dist α x y ∂ν ∂μ := by
  have hl : P.map (fun ω => (x ω, y ω)) = μ.prod ν := by
    rw [(indepFun_iff_map_prod_eq_prod_map_map hx.aemeasurable hy.aemeasurable).1 hi, hlx, hly]
  have hi' := Charac.dist_integrable hα.le hμ hν
  have h := expect (hx.prodMk hy) hl (Charac.dist_continuous hα.le).measurable hi'
  rw [integral_prod _ hi'] at h
  exact h

theorem cross_expect (hα : 0 < α) (hX : ∀ i, Measurable (X i)) (hY : ∀ i, Measurable (Y i)) (hlX : ∀ i, P.map (X i) = μ)
    (hlY : ∀ i, P.map (Y i) = ν) (hi : ∀ i j, IndepFun (X i) (Y j) P)
    (hμ : Integrable (fun x => Spec.dist α x 0) μ) (hν : Integrable (fun x => Spec.dist α x 0) ν) (hn : 0 < n) (hm : 0 < m) :
    Integrable (fun ω => Spec.crossMean α (fun i => X i ω) fun i => Y i ω) P ∧
      ∫ ω, Spec.crossMean α (fun i => X i ω) (fun i => Y i ω) ∂P = ∫ x, ∫ y, Spec.dist α x y ∂ν ∂μ := by
  have h := fun i j => dist_expect hα (hX i) (hY j) (hlX i) (hlY j) (hi i j) hμ hν
  unfold Spec.crossMean
  refine ⟨(integrable_finsetSum _ fun i _ => integrable_finsetSum _ fun j _ => (h i j).1).div_const _, ?_⟩
  have e0 : (n : ℝ) ≠ 0 := by positivity
  have e1 : (m : ℝ) ≠ 0 := by positivity
  rw [integral_div, integral_finsetSum _ fun i _ => integrable_finsetSum _ fun j _ => (h i j).1,
    sum_congr rfl fun i _ => integral_finsetSum _ fun j _ => (h i j).1, div_eq_iff (mul_ne_zero e0 e1)]
  simp only [(h _ _).2, sum_const, card_univ, Fintype.card_fin, nsmul_eq_mul]
  ring

theorem pair_expect (hα : 0 < α) (hX : ∀ i, Measurable (X i)) (hlX : ∀ i, P.map (X i) = μ)
    (hi : Pairwise fun i j => IndepFun (X i) (X j) P) (hμ : Integrable (fun x => Spec.dist α x 0) μ) (hn : 1 < n) :
    Integrable (fun ω => Spec.pairMean α fun i => X i ω) P ∧
      ∫ ω, Spec.pairMean α (fun i => X i ω) ∂P = ∫ x, ∫ y, Spec.dist α x y ∂μ ∂μ := by
  have h := fun i j (hij : i ≠ j) => dist_expect hα (hX i) (hX j) (hlX i) (hlX j) (hi hij) hμ hμ
  unfold Spec.pairMean
  have hs : ∀ i : Fin n, ∀ j ∈ univ.filter (· ≠ i), Integrable (fun ω => Spec.dist α (X i ω) (X j ω)) P := fun i j hj =>
    (h i j (Ne.symm (mem_filter.1 hj).2)).1
  refine ⟨(integrable_finsetSum _ fun i _ => integrable_finsetSum _ (hs i)).div_const _, ?_⟩
  have h1 : (1 : ℝ) < n := by exact_mod_cast hn
  have e0 : (n : ℝ) ≠ 0 := by linarith
  have e1 : (n : ℝ) - 1 ≠ 0 := by linarith
  rw [integral_div, integral_finsetSum _ fun i _ => integrable_finsetSum _ (hs i),
    sum_congr rfl fun i _ => integral_finsetSum _ (hs i), div_eq_iff (mul_ne_zero e0 e1)]
  have e : ∀ i : Fin n, ∑ j ∈ univ.filter (· ≠ i), ∫ ω, Spec.dist α (X i ω) (X j ω) ∂P
      = (n - 1) * ∫ x, ∫ y, Spec.dist α x y ∂μ ∂μ := by
    intro i
    rw [sum_congr rfl fun j hj => (h i j (Ne.symm (mem_filter.1 hj).2)).2, sum_const, nsmul_eq_mul, filter_ne',
      card_erase_of_mem (mem_univ i), card_univ, Fintype.card_fin, Nat.cast_sub hn.le, Nat.cast_one]
  simp only [e, sum_const, card_univ, Fintype.card_fin, nsmul_eq_mul]
  ring

/-- The expectations of both estimators. -/
theorem energy_expect (hα : 0 < α) (hX : ∀ i, Measurable (X i)) (hY : ∀ i, Measurable (Y i)) (hlX : ∀ i, P.map (X i) = μ)
    (hlY : ∀ i, P.map (Y i) = ν) (hi : ∀ i j, IndepFun (X i) (Y j) P)
    (hiX : Pairwise fun i j => IndepFun (X i) (X j) P) (hiY : Pairwise fun i j => IndepFun (Y i) (Y j) P)
    (hμ : Integrable (fun x => Spec.dist α x 0) μ) (hν : Integrable (fun x => Spec.dist α x 0) ν) (hn : 1 < n) (hm : 1 < m) :
    (Integrable (fun ω => Spec.energyU α (fun i => X i ω) fun i => Y i ω) P ∧
      ∫ ω, Spec.energyU α (fun i => X i ω) (fun i => Y i ω) ∂P = Spec.energyPop α μ ν) ∧
    Integrable (fun ω => Spec.energyV α (fun i => X i ω) fun i => Y i ω) P ∧
      ∫ ω, Spec.energyV α (fun i => X i ω) (fun i => Y i ω) ∂P = Spec.energyPop α μ ν
        + (∫ x, ∫ y, Spec.dist α x y ∂μ ∂μ) / n + (∫ x, ∫ y, Spec.dist α x y ∂ν ∂ν) / m := by
  obtain ⟨i1, v1⟩ := cross_expect hα hX hY hlX hlY hi hμ hν (by omega) (by omega)
  obtain ⟨i2, v2⟩ := pair_expect hα hX hlX hiX hμ hn
  obtain ⟨i3, v3⟩ := pair_expect hα hY hlY hiY hν hm
  have hn1 : (1 : ℝ) < n := by exact_mod_cast hn
  have hm1 : (1 : ℝ) < m := by exact_mod_cast hm
  have key : ∀ c d : ℝ, Integrable (fun ω => 2 * Spec.crossMean α (fun i => X i ω) (fun i => Y i ω)
      - c * Spec.pairMean α (fun i => X i ω) - d * Spec.pairMean α (fun i => Y i ω)) P ∧
      ∫ ω, (2 * Spec.crossMean α (fun i => X i ω) (fun i => Y i ω)
      - c * Spec.pairMean α (fun i => X i ω) - d * Spec.pairMean α (fun i => Y i ω)) ∂P
      = 2 * (∫ x, ∫ y, Spec.dist α x y ∂ν ∂μ) - c * (∫ x, ∫ y, Spec.dist α x y ∂μ ∂μ)
        - d * ∫ x, ∫ y, Spec.dist α x y ∂ν ∂ν := by
    intro c d
    have h1 := (i1.const_mul 2).sub (i2.const_mul c)
    have e1 : ∫ ω, (2 * Spec.crossMean α (fun i => X i ω) (fun i => Y i ω)
        - c * Spec.pairMean α (fun i => X i ω) - d * Spec.pairMean α (fun i => Y i ω)) ∂P
        = ∫ ω, (2 * Spec.crossMean α (fun i => X i ω) (fun i => Y i ω) - c * Spec.pairMean α (fun i => X i ω)) ∂P
          - ∫ ω, d * Spec.pairMean α (fun i => Y i ω) ∂P := integral_sub h1 (i3.const_mul d)
    have e2 : ∫ ω, (2 * Spec.crossMean α (fun i => X i ω) (fun i => Y i ω) - c * Spec.pairMean α (fun i => X i ω)) ∂P
        = ∫ ω, 2 * Spec.crossMean α (fun i => X i ω) (fun i => Y i ω) ∂P
          - ∫ ω, c * Spec.pairMean α (fun i => X i ω) ∂P := integral_sub (i1.const_mul 2) (i2.const_mul c)
    exact ⟨h1.sub (i3.const_mul d), by rw [e1, e2, integral_const_mul, integral_const_mul, integral_const_mul, v1, v2, v3]⟩
  constructor
  · have := key 1 1
    simp only [one_mul] at this
    exact this
  · have hpc : ∀ {r : ℕ} (W : Fin r → Fin p → ℝ), 1 < r → Spec.crossMean α W W = (1 - 1 / (r : ℝ)) * Spec.pairMean α W := by
      intro r W hr
      have h1 : (1 : ℝ) < r := by exact_mod_cast hr
      have e0 : (r : ℝ) ≠ 0 := by linarith
      have e1 : (r : ℝ) - 1 ≠ 0 := by linarith
      rw [Consistency.pairMean_eq hα.ne' hr]
      field_simp
    unfold Spec.energyV
    simp only [hpc _ hn, hpc _ hm]
    obtain ⟨a, b⟩ := key (1 - 1 / (n : ℝ)) (1 - 1 / (m : ℝ))
    refine ⟨a, b.trans ?_⟩
    rw [Spec.energyPop]
    ring

end Energy

end Expectation

end Dcor

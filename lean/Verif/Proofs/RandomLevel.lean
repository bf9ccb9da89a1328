/-
The level of a permutation test for random data whose distribution does not change under relabelling.
-/
import Verif.Proofs.Exchange
import Verif.Proofs.CharacZero
import Mathlib.Probability.Independence.Basic

namespace Dcor.RandomLevel

open Finset MeasureTheory ProbabilityTheory

variable {G : Type} {D : Type*} {B : ℕ} {act : G → D → D} {T : D → ℝ}

/-- The p-value of data `d` with the relabellings `σ`. -/
noncomputable def pvalue (act : G → D → D) (T : D → ℝ) (d : D) (σ : Fin B → G) : ℝ :=
  (((univ.filter fun i => T d < T (act (σ i) d)).card : ℝ) + 1) / ((B : ℝ) + 1)

open Classical in
theorem pvalue_eq (d : D) (σ : Fin B → G) (f : ℕ → FP ℝ) (hf : ∀ i : Fin B, f i = .fin (T (act (σ i) d))) :
    pvalue act T d σ = Spec.permPvalue (.fin (T d)) f B := by
  unfold pvalue Spec.permPvalue Spec.countAbove
  congr 3
  refine card_bij (fun i _ => (i : ℕ)) (fun i hi => ?_) (fun i _ j _ h => Fin.ext h) fun i hi => ?_
  · rw [mem_filter] at hi ⊢
    refine ⟨mem_range.2 i.2, ?_⟩
    rw [hf]
    exact hi.2
  · rw [mem_filter] at hi
    refine ⟨⟨i, mem_range.1 hi.1⟩, mem_filter.2 ⟨mem_univ _, ?_⟩, rfl⟩
    have h := hi.2
    rw [hf ⟨i, mem_range.1 hi.1⟩] at h
    exact h

variable [MeasurableSpace D]

theorem measurable_pvalue (hT : Measurable T) (ha : ∀ π, Measurable (act π)) (σ : Fin B → G) :
    Measurable fun d => pvalue act T d σ := by
  have h : ∀ d, pvalue act T d σ = ((∑ i, if T d < T (act (σ i) d) then (1 : ℝ) else 0) + 1) / ((B : ℝ) + 1) := by
    intro d
    unfold pvalue
    rw [Finset.sum_boole]
  simp only [h]
  refine ((Finset.measurable_sum _ fun i _ => ?_).add_const _).div_const _
  exact Measurable.ite (measurableSet_lt hT (hT.comp (ha _))) measurable_const measurable_const

theorem measurableSet_tie (hT : Measurable T) (ha : ∀ π, Measurable (act π)) (σ : Fin B → G) :
    MeasurableSet {d | ∃ i, T (act (σ i) d) = T d} := by
  rw [Set.ofPred_exists]
  exact MeasurableSet.iUnion fun i => measurableSet_eq_fun (hT.comp (ha _)) hT

variable [Fintype G] {κ : Measure D} [IsProbabilityMeasure κ]

/-- A sum of probabilities over all relabellings is the integral of the number of relabellings of the data. -/
theorem average (hinv : ∀ π, MeasurePreserving (act π) κ κ) {A : (Fin B → G) → Set D} (hA : ∀ σ, MeasurableSet (A σ)) :
    open Classical in
    Integrable (fun d => ((univ.filter fun ω : G × (Fin B → G) => act ω.1 d ∈ A ω.2).card : ℝ)) κ ∧
    (Fintype.card G : ℝ) * ∑ σ, κ.real (A σ)
      = ∫ d, ((univ.filter fun ω : G × (Fin B → G) => act ω.1 d ∈ A ω.2).card : ℝ) ∂κ := by
  classical
  have e (d : D) : ((univ.filter fun ω : G × (Fin B → G) => act ω.1 d ∈ A ω.2).card : ℝ)
      = ∑ ω : G × (Fin B → G), (act ω.1 ⁻¹' A ω.2).indicator (fun _ => (1 : ℝ)) d := by
    rw [← Finset.sum_boole]
    exact sum_congr rfl fun ω _ => rfl
  have hm (ω : G × (Fin B → G)) : MeasurableSet (act ω.1 ⁻¹' A ω.2) := (hinv ω.1).measurable (hA ω.2)
  have hi (ω : G × (Fin B → G)) : Integrable ((act ω.1 ⁻¹' A ω.2).indicator fun _ => (1 : ℝ)) κ :=
    (integrable_const 1).indicator (hm ω)
  simp only [e]
  refine ⟨integrable_finsetSum _ fun ω _ => hi ω, ?_⟩
  rw [integral_finsetSum _ fun ω _ => hi ω, Fintype.sum_prod_type, sum_comm, mul_sum]
  refine sum_congr rfl fun σ _ => ?_
  have h (π : G) : ∫ d, (act π ⁻¹' A σ).indicator (fun _ => (1 : ℝ)) d ∂κ = κ.real (A σ) := by
    rw [integral_indicator_const _ (hm (π, σ)), smul_eq_mul, mul_one]
    exact (hinv π).measureReal_preimage (hA σ).nullMeasurableSet
  simp only [h, sum_const, card_univ, nsmul_eq_mul]

variable [Group G]

/-- The level is above `k / (B + 1)`, and by at most the probability of a tie. -/
theorem level (hT : Measurable T) (hinv : ∀ π, MeasurePreserving (act π) κ κ)
    (hmul : ∀ π σ d, act σ (act π d) = act (π * σ) d) {k : ℕ} :
    (0 < k → k ≤ B → (k : ℝ) / (B + 1)
      < (∑ σ : Fin B → G, κ.real {d | pvalue act T d σ ≤ (k : ℝ) / (B + 1)}) / (Fintype.card G : ℝ) ^ B) ∧
    (∑ σ : Fin B → G, κ.real {d | pvalue act T d σ ≤ (k : ℝ) / (B + 1)}) / (Fintype.card G : ℝ) ^ B
      ≤ (k : ℝ) / (B + 1)
        + (∑ σ : Fin B → G, κ.real {d | ∃ i, T (act (σ i) d) = T d}) / (Fintype.card G : ℝ) ^ B := by
  classical
  obtain ⟨i1, e1⟩ := average hinv (A := fun σ : Fin B → G => {d | pvalue act T d σ ≤ (k : ℝ) / (B + 1)})
    fun σ => measurableSet_le (measurable_pvalue hT (fun π => (hinv π).measurable) σ) measurable_const
  obtain ⟨A, hA⟩ : ∃ A : (Fin B → G) → Set D, A = fun σ => {d | ∃ i, T (act (σ i) d) = T d} := ⟨_, rfl⟩
  obtain ⟨i2, e2⟩ := average hinv (A := A) fun σ => hA ▸ measurableSet_tie hT (fun π => (hinv π).measurable) σ
  have hA' (σ : Fin B → G) : {d | ∃ i, T (act (σ i) d) = T d} = A σ := by rw [hA]
  simp only [hA']
  have hG : (0 : ℝ) < Fintype.card G := by exact_mod_cast Fintype.card_pos
  have hB : (0 : ℝ) < B + 1 := by positivity
  have hpv (d : D) : ∀ ω : G × (Fin B → G), ∃ f : ℕ → FP ℝ, (∀ i : Fin B, f i = .fin (T (act (ω.1 * ω.2 i) d))) ∧
      pvalue act T (act ω.1 d) ω.2 = Spec.permPvalue (.fin (T (act ω.1 d))) f B := by
    intro ω
    refine ⟨fun i => if h : i < B then .fin (T (act (ω.1 * ω.2 ⟨i, h⟩) d)) else .nan, fun i => ?_, pvalue_eq _ _ _ fun i => ?_⟩
    · exact dif_pos i.2
    · rw [hmul]
      exact dif_pos i.2
  have hcard : (Fintype.card (G × (Fin B → G)) : ℝ) = Fintype.card G * (Fintype.card G : ℝ) ^ B := by
    rw [Fintype.card_prod, Fintype.card_fun, Fintype.card_fin]
    push_cast
    ring
  have hGB : (0 : ℝ) < (Fintype.card G : ℝ) ^ B := by positivity
  constructor
  · intro hk hkB
    have h (d : D) : (k : ℝ) * Fintype.card (G × (Fin B → G)) + 1
        ≤ (B + 1) * ((univ.filter fun ω : G × (Fin B → G) => act ω.1 d ∈ {d | pvalue act T d ω.2 ≤ (k : ℝ) / (B + 1)}).card : ℝ) := by
      have := level_exceeds (fun π => T (act π d)) (hpv d) hk hkB
      exact_mod_cast this
    have h2 := integral_mono (integrable_const _) (i1.const_mul _) h
    rw [integral_const, probReal_univ, one_smul, integral_const_mul, ← e1, hcard] at h2
    rw [div_lt_div_iff₀ hB hGB]
    nlinarith
  · have h (d : D) : (B + 1) * ((univ.filter fun ω : G × (Fin B → G) =>
          act ω.1 d ∈ {d | pvalue act T d ω.2 ≤ (k : ℝ) / (B + 1)}).card : ℝ)
        ≤ (k : ℝ) * Fintype.card (G × (Fin B → G)) + (B + 1) * ((univ.filter fun ω : G × (Fin B → G) =>
          act ω.1 d ∈ A ω.2).card : ℝ) := by
      have := level_le (fun π => T (act π d)) (hpv d) k
      have e : (univ.filter fun ω : G × (Fin B → G) => ∃ i, T (act (ω.1 * ω.2 i) d) = T (act ω.1 d))
          = univ.filter fun ω : G × (Fin B → G) => act ω.1 d ∈ A ω.2 := by
        refine filter_congr fun ω _ => ?_
        rw [hA]
        simp only [← hmul, Set.mem_ofPred_eq]
      rw [e] at this
      exact_mod_cast this
    have i3 : Integrable (fun d => (k : ℝ) * Fintype.card (G × (Fin B → G)) + (B + 1) * ((univ.filter fun ω : G × (Fin B → G) =>
        act ω.1 d ∈ A ω.2).card : ℝ)) κ := (integrable_const _).add (i2.const_mul _)
    have h2 := integral_mono (i1.const_mul _) i3 h
    have h3 : ∫ d, ((k : ℝ) * Fintype.card (G × (Fin B → G)) + (B + 1) * ((univ.filter fun ω : G × (Fin B → G) =>
          act ω.1 d ∈ A ω.2).card : ℝ)) ∂κ
        = (k : ℝ) * Fintype.card (G × (Fin B → G)) + (B + 1) * ∫ d, ((univ.filter fun ω : G × (Fin B → G) =>
          act ω.1 d ∈ A ω.2).card : ℝ) ∂κ := by
      rw [integral_add (integrable_const _) (i2.const_mul _), integral_const, probReal_univ, one_smul, integral_const_mul]
    have h4 := h2.trans_eq h3
    rw [integral_const_mul, ← e1, ← e2, hcard] at h4
    rw [← sub_nonneg] at h4 ⊢
    rw [show (k : ℝ) / (B + 1) + (∑ σ : Fin B → G, κ.real (A σ)) / (Fintype.card G : ℝ) ^ B
        - (∑ σ : Fin B → G, κ.real {d | pvalue act T d σ ≤ (k : ℝ) / (B + 1)}) / (Fintype.card G : ℝ) ^ B
      = ((k : ℝ) * (Fintype.card G * (Fintype.card G : ℝ) ^ B)
        + (B + 1) * (Fintype.card G * ∑ σ : Fin B → G, κ.real (A σ))
        - (B + 1) * (Fintype.card G * ∑ σ : Fin B → G, κ.real {d | pvalue act T d σ ≤ (k : ℝ) / (B + 1)}))
        / ((B + 1) * (Fintype.card G * (Fintype.card G : ℝ) ^ B)) by field_simp]
    positivity

/-! ### Data whose distribution does not change -/

section Invariance

variable {Ω S : Type*} [MeasurableSpace S] {mΩ : MeasurableSpace Ω} {P : Measure Ω} {n p q : ℕ}

omit [IsProbabilityMeasure κ] [Group G] [Fintype G] in
theorem permute_preserving {μ : Measure S} [IsProbabilityMeasure μ] (π : Equiv.Perm (Fin n)) :
    MeasurePreserving (fun (d : Fin n → S) i => d (π i)) (Measure.pi fun _ => μ) (Measure.pi fun _ => μ) := by
  have h := measurePreserving_piCongrLeft (α := fun _ : Fin n => S) (fun _ => μ) π.symm
  convert h using 1
  funext d i
  rw [MeasurableEquiv.coe_piCongrLeft, Equiv.piCongrLeft_apply_eq_cast]
  exact (cast_eq _ _).symm

/-- For independent parts, permuting one part does not change the distribution. -/
theorem permute_fst_preserving {μ : Measure ((Fin p → ℝ) × (Fin q → ℝ))} [IsProbabilityMeasure μ]
    (hi : IndepFun Prod.fst Prod.snd μ) (π : Equiv.Perm (Fin n)) :
    MeasurePreserving (fun (d : Fin n → (Fin p → ℝ) × (Fin q → ℝ)) i => ((d (π i)).1, (d i).2))
      (Measure.pi fun _ => μ) (Measure.pi fun _ => μ) := by
  have h := Charac.parts_iff.2 hi
  have _ : IsProbabilityMeasure (μ.map Prod.fst) := Measure.isProbabilityMeasure_map measurable_fst.aemeasurable
  have _ : IsProbabilityMeasure (μ.map Prod.snd) := Measure.isProbabilityMeasure_map measurable_snd.aemeasurable
  have e := measurePreserving_arrowProdEquivProdArrow (Fin p → ℝ) (Fin q → ℝ) (Fin n) (fun _ => μ.map Prod.fst)
    fun _ => μ.map Prod.snd
  have h1 := (permute_preserving (μ := μ.map Prod.fst) π).prod (MeasurePreserving.id (Measure.pi fun _ : Fin n => μ.map Prod.snd))
  have h2 := (e.symm.comp h1).comp e
  change MeasurePreserving _ (Measure.pi fun _ => Charac.parts μ) (Measure.pi fun _ => Charac.parts μ) at h2
  rw [← h] at h2
  exact h2

/-- The joint distribution of the observations. -/
theorem law_observations [IsProbabilityMeasure P] {Z : Fin n → Ω → S} {μ : Measure S} (hZ : Spec.Observations P Z μ) :
    MeasurePreserving (fun ω i => Z i ω) P (Measure.pi fun _ => μ) := by
  refine ⟨measurable_pi_lambda _ hZ.measurable, ?_⟩
  rw [hZ.indep.map_fun_eq_pi_map fun i => (hZ.measurable i).aemeasurable]
  simp only [hZ.law]

end Invariance

end Dcor.RandomLevel

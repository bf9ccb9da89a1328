/-
McDiarmid's inequality: functions of independent observations that change little with every single observation are close to
their expectation.
-/
import Mathlib.Probability.Moments.SubGaussian
import Mathlib.MeasureTheory.Constructions.Pi
import Mathlib.MeasureTheory.Integral.Prod
import Mathlib.Probability.Independence.Basic

namespace Dcor.Concentration

open Finset MeasureTheory ProbabilityTheory Filter
open scoped NNReal

section Product

variable {A B : Type*} [MeasurableSpace A] [MeasurableSpace B] {κ : Measure A} {ν : Measure B}

/-- The deviation from the expectation has an exponential moment like that of a normal distribution with variance `c`. -/
def Sub (f : A → ℝ) (c : ℝ) (κ : Measure A) : Prop :=
  ∀ t, ∫ a, Real.exp (t * (f a - ∫ a', f a' ∂κ)) ∂κ ≤ Real.exp (c * t ^ 2 / 2)

theorem integrable_of_bdd [IsFiniteMeasure κ] {f : A → ℝ} (hf : Measurable f) {C : ℝ} (hb : ∀ a, |f a| ≤ C) :
    Integrable f κ :=
  (integrable_const C).mono' hf.aestronglyMeasurable (Eventually.of_forall hb)

theorem integrable_exp [IsFiniteMeasure κ] {f : A → ℝ} (hf : Measurable f) {C : ℝ} (hb : ∀ a, |f a| ≤ C) (t m : ℝ) :
    Integrable (fun a => Real.exp (t * (f a - m))) κ := by
  refine integrable_of_bdd (C := Real.exp (|t| * (C + |m|))) (by fun_prop) fun a => ?_
  rw [abs_of_pos (Real.exp_pos _)]
  refine Real.exp_le_exp.2 ((le_abs_self _).trans ?_)
  rw [abs_mul]
  refine mul_le_mul_of_nonneg_left ?_ (abs_nonneg _)
  have := abs_sub (f a) m
  linarith [hb a]

theorem sub_prod [IsProbabilityMeasure κ] [IsProbabilityMeasure ν] {f : A × B → ℝ} (hf : Measurable f) {C : ℝ}
    (hb : ∀ z, |f z| ≤ C) {c₁ c₂ : ℝ} (h1 : ∀ b, Sub (fun a => f (a, b)) c₁ κ)
    (h2 : Sub (fun b => ∫ a, f (a, b) ∂κ) c₂ ν) : Sub f (c₁ + c₂) (κ.prod ν) := by
  intro t
  have hm : Measurable fun b => ∫ a, f (a, b) ∂κ := by
    have := hf.stronglyMeasurable.integral_prod_left' (μ := κ)
    exact this.measurable
  have hmb : ∀ b, |∫ a, f (a, b) ∂κ| ≤ C := fun b => by
    have := norm_integral_le_of_norm_le_const (μ := κ) (f := fun a => f (a, b)) (C := C)
      (Eventually.of_forall fun a => hb (a, b))
    simpa using this
  have hF : ∫ z, f z ∂(κ.prod ν) = ∫ b, ∫ a, f (a, b) ∂κ ∂ν := integral_prod_symm f (integrable_of_bdd hf hb)
  rw [integral_prod_symm _ (integrable_exp hf hb t _)]
  obtain ⟨F, eF⟩ : ∃ F, F = ∫ z, f z ∂(κ.prod ν) := ⟨_, rfl⟩
  rw [← eF]
  have hin : ∀ b, ∫ a, Real.exp (t * (f (a, b) - F)) ∂κ
      ≤ Real.exp (c₁ * t ^ 2 / 2) * Real.exp (t * ((∫ a, f (a, b) ∂κ) - F)) := by
    intro b
    have e : ∀ a, Real.exp (t * (f (a, b) - F))
        = Real.exp (t * (f (a, b) - ∫ a', f (a', b) ∂κ)) * Real.exp (t * ((∫ a, f (a, b) ∂κ) - F)) := by
      intro a
      rw [← Real.exp_add]
      ring_nf
    simp only [e]
    rw [integral_mul_const]
    exact mul_le_mul_of_nonneg_right (h1 b t) (Real.exp_pos _).le
  have h3 := h2 t
  rw [← hF, ← eF] at h3
  calc ∫ b, ∫ a, Real.exp (t * (f (a, b) - F)) ∂κ ∂ν
      ≤ ∫ b, Real.exp (c₁ * t ^ 2 / 2) * Real.exp (t * ((∫ a, f (a, b) ∂κ) - F)) ∂ν :=
        integral_mono_of_nonneg (Eventually.of_forall fun b => integral_nonneg fun a => (Real.exp_pos _).le)
          ((integrable_exp hm hmb t F).const_mul _) (Eventually.of_forall hin)
    _ = Real.exp (c₁ * t ^ 2 / 2) * ∫ b, Real.exp (t * ((∫ a, f (a, b) ∂κ) - F)) ∂ν := integral_const_mul _ _
    _ ≤ Real.exp (c₁ * t ^ 2 / 2) * Real.exp (c₂ * t ^ 2 / 2) := mul_le_mul_of_nonneg_left h3 (Real.exp_pos _).le
    _ = Real.exp ((c₁ + c₂) * t ^ 2 / 2) := by
        rw [← Real.exp_add]
        ring_nf

/-- Hoeffding's lemma. -/
theorem sub_of_range [IsProbabilityMeasure κ] {f : A → ℝ} (hf : Measurable f) {C c : ℝ} (hb : ∀ a, |f a| ≤ C) (hc : 0 ≤ c)
    (h : ∀ a a', |f a - f a'| ≤ c) : Sub f (c ^ 2 / 4) κ := by
  have hn : Nonempty A := nonempty_of_isProbabilityMeasure κ
  have hbd : BddBelow (Set.range f) := ⟨-C, by
    rintro _ ⟨a, rfl⟩
    exact (abs_le.1 (hb a)).1⟩
  have hmem : ∀ a, f a ∈ Set.Icc (⨅ a, f a) ((⨅ a, f a) + c) := fun a => by
    refine ⟨ciInf_le hbd a, ?_⟩
    have : f a - c ≤ ⨅ a, f a := le_ciInf fun a' => by linarith [(abs_le.1 (h a a')).2]
    linarith
  have hs := hasSubgaussianMGF_of_mem_Icc (μ := κ) hf.aemeasurable (Eventually.of_forall hmem)
  intro t
  refine (hs.mgf_le t).trans (le_of_eq ?_)
  rw [add_sub_cancel_left]
  push_cast
  rw [Real.norm_of_nonneg hc]
  ring_nf

theorem Sub.tail [IsProbabilityMeasure κ] {f : A → ℝ} (hf : Measurable f) {C c : ℝ} (hb : ∀ a, |f a| ≤ C) (hc : 0 ≤ c)
    (h : Sub f c κ) {t : ℝ} (ht : 0 ≤ t) :
    κ.real {a | t ≤ |f a - ∫ a', f a' ∂κ|} ≤ 2 * Real.exp (-t ^ 2 / (2 * c)) := by
  obtain ⟨d, rfl⟩ : ∃ d : ℝ≥0, (d : ℝ) = c := ⟨⟨c, hc⟩, rfl⟩
  have hs : HasSubgaussianMGF (fun a => f a - ∫ a', f a' ∂κ) d κ :=
    ⟨fun s => integrable_exp hf hb s _, fun s => h s⟩
  have h1 := hs.measure_ge_le ht
  have h2 := hs.neg.measure_ge_le ht
  have hsub : {a | t ≤ |f a - ∫ a', f a' ∂κ|}
      ⊆ {a | t ≤ f a - ∫ a', f a' ∂κ} ∪ {a | t ≤ (-fun a => f a - ∫ a', f a' ∂κ) a} := by
    intro a ha
    rcases le_abs.1 (show t ≤ |f a - ∫ a', f a' ∂κ| from ha) with h | h
    · exact Or.inl h
    · exact Or.inr h
  have h3 := (measureReal_mono (μ := κ) hsub).trans (measureReal_union_le _ _)
  linarith

end Product

section McDiarmid

variable {S : Type*} [MeasurableSpace S]

/-- The function changes by at most `c i` if the observation `i` is replaced. -/
def BoundedDiff {n : ℕ} (f : (Fin n → S) → ℝ) (c : Fin n → ℝ) : Prop :=
  ∀ z i s, |f z - f (Function.update z i s)| ≤ c i

omit [MeasurableSpace S] in
theorem BoundedDiff.le_sum {n : ℕ} {f : (Fin n → S) → ℝ} {c : Fin n → ℝ} (h : BoundedDiff f c) (z w : Fin n → S) :
    |f z - f w| ≤ ∑ i, c i := by
  classical
  have key : ∀ s : Finset (Fin n), |f z - f fun i => if i ∈ s then w i else z i| ≤ ∑ i ∈ s, c i := by
    intro s
    induction s using Finset.induction_on with
    | empty => simp
    | insert a s ha ih =>
      rw [sum_insert ha]
      have e : (fun i => if i ∈ insert a s then w i else z i)
          = Function.update (fun i => if i ∈ s then w i else z i) a (w a) := by
        funext i
        by_cases hi : i = a
        · subst hi
          simp
        · rw [Function.update_of_ne hi]
          simp [hi]
      rw [e]
      have h1 := h (fun i => if i ∈ s then w i else z i) a (w a)
      have h2 := abs_sub_le (f z) (f fun i => if i ∈ s then w i else z i)
        (f (Function.update (fun i => if i ∈ s then w i else z i) a (w a)))
      linarith
  have := key univ
  simpa using this

omit [MeasurableSpace S] in
theorem BoundedDiff.bounded {n : ℕ} {f : (Fin n → S) → ℝ} {c : Fin n → ℝ} (h : BoundedDiff f c) :
    ∃ C, ∀ z, |f z| ≤ C := by
  by_cases hn : Nonempty (Fin n → S)
  · obtain ⟨w⟩ := hn
    refine ⟨|f w| + ∑ i, c i, fun z => ?_⟩
    have := h.le_sum z w
    have := abs_sub_abs_le_abs_sub (f z) (f w)
    linarith
  · exact ⟨0, fun z => absurd ⟨z⟩ hn⟩

theorem mcdiarmid {n : ℕ} (μ : Fin n → Measure S) [∀ i, IsProbabilityMeasure (μ i)] {f : (Fin n → S) → ℝ}
    (hf : Measurable f) {C : ℝ} (hb : ∀ z, |f z| ≤ C) {c : Fin n → ℝ} (hc : ∀ i, 0 ≤ c i) (hd : BoundedDiff f c) :
    Sub f ((∑ i, c i ^ 2) / 4) (Measure.pi μ) := by
  induction n with
  | zero =>
    intro t
    have e : ∀ z, f z = f Fin.elim0 := fun z => congrArg f (Subsingleton.elim z _)
    simp [e]
  | succ n ih =>
    have hp := (measurePreserving_piFinSuccAbove μ 0).symm
    obtain ⟨e, he⟩ : ∃ e, e = (MeasurableEquiv.piFinSuccAbove (fun _ : Fin (n + 1) => S) 0).symm := ⟨_, rfl⟩
    have hp' : MeasurePreserving e ((μ 0).prod (Measure.pi fun j => μ (Fin.succAbove 0 j))) (Measure.pi μ) := by
      rw [he]
      exact hp
    have ee : ∀ s (z : Fin n → S), e (s, z) = Fin.cons s z := fun s z => by
      rw [he]
      simp only [MeasurableEquiv.piFinSuccAbove, Fin.insertNthEquiv_zero]
      rfl
    have key : Sub (fun w : S × (Fin n → S) => f (e w)) ((∑ i, c i ^ 2) / 4)
        ((μ 0).prod (Measure.pi fun j => μ (Fin.succAbove 0 j))) := by
      have es : (∑ i, c i ^ 2) / 4 = c 0 ^ 2 / 4 + (∑ i : Fin n, c i.succ ^ 2) / 4 := by
        rw [Fin.sum_univ_succ]
        ring
      rw [es]
      have hfe : Measurable fun w : S × (Fin n → S) => f (e w) := hf.comp e.measurable
      refine sub_prod hfe (fun w => hb _) (fun z => ?_) ?_
      · refine sub_of_range (hfe.comp measurable_prodMk_right) (fun s => hb _) (hc 0) fun s s' => ?_
        simp only [Function.comp_def]
        have := hd (Fin.cons s z) 0 s'
        rw [Fin.update_cons_zero] at this
        rwa [ee, ee]
      · have hm : Measurable fun z : Fin n → S => ∫ s, f (e (s, z)) ∂(μ 0) :=
          (hfe.stronglyMeasurable.integral_prod_left' (μ := μ 0)).measurable
        refine ih (fun j => μ (Fin.succAbove 0 j)) hm (fun z => ?_) (fun i => hc i.succ) fun z i v => ?_
        · have := norm_integral_le_of_norm_le_const (μ := μ 0) (f := fun s => f (e (s, z))) (C := C)
            (Eventually.of_forall fun s => hb _)
          simpa using this
        · have i1 : ∀ z, Integrable (fun s => f (e (s, z))) (μ 0) := fun z =>
            integrable_of_bdd (hfe.comp measurable_prodMk_right) fun s => hb _
          rw [← integral_sub (i1 z) (i1 _)]
          have := norm_integral_le_of_norm_le_const (μ := μ 0)
            (f := fun s => f (e (s, z)) - f (e (s, Function.update z i v))) (C := c i.succ)
            (Eventually.of_forall fun s => by
              have := hd (Fin.cons s z) i.succ v
              rw [← Fin.cons_update] at this
              rwa [ee, ee])
          simpa using this
    intro t
    have k := key t
    rw [hp'.integral_comp e.measurableEmbedding f] at k
    rwa [hp'.integral_comp e.measurableEmbedding fun z => Real.exp (t * (f z - ∫ a, f a ∂(Measure.pi μ)))] at k

end McDiarmid

end Dcor.Concentration

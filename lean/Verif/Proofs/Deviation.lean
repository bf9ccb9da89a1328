/-
Deviations of functions of independent observations with values in a set on which single observations change them little.
-/
import Verif.Proofs.McDiarmid
import Verif.Spec.Population

namespace Dcor.Concentration

open Finset MeasureTheory ProbabilityTheory Filter

variable {Ω S S' : Type*} [MeasurableSpace S] [MeasurableSpace S'] {mΩ : MeasurableSpace Ω} {P : Measure Ω}
  [IsProbabilityMeasure P] {n m : ℕ}

/-- Values outside of `K` are replaced by `z₀`. -/
noncomputable def clip (K : Set S) (z₀ : S) (z : S) : S := by
  classical exact if z ∈ K then z else z₀

theorem clip_measurable {K : Set S} (hK : MeasurableSet K) (z₀ : S) : Measurable (clip K z₀) := by
  classical
  unfold clip
  exact Measurable.ite hK measurable_id measurable_const

omit [MeasurableSpace S] in
theorem clip_mem {K : Set S} {z₀ : S} (h : z₀ ∈ K) (z : S) : clip K z₀ z ∈ K := by
  unfold clip
  split_ifs with hz
  · exact hz
  · exact h

omit [MeasurableSpace S] in
theorem clip_of_mem {K : Set S} (z₀ : S) {z : S} (hz : z ∈ K) : clip K z₀ z = z := by
  unfold clip
  rw [if_pos hz]

omit [MeasurableSpace S] in
theorem clip_update {K : Set S} {z₀ : S} (z : Fin n → S) (i : Fin n) (s : S) :
    (fun j => clip K z₀ (Function.update z i s j)) = Function.update (fun j => clip K z₀ (z j)) i (clip K z₀ s) := by
  funext j
  by_cases h : j = i
  · subst h
    simp
  · rw [Function.update_of_ne h, Function.update_of_ne h]

theorem clips_measurable {K : Set S} (hK : MeasurableSet K) (z₀ : S) :
    Measurable fun z : Fin n → S => fun j => clip K z₀ (z j) :=
  measurable_pi_lambda _ fun j => (clip_measurable hK z₀).comp (measurable_pi_apply j)

omit [IsProbabilityMeasure P] in
theorem law_pi {Z : Fin n → Ω → S} {μ : Measure S} [IsProbabilityMeasure μ] (hZ : Spec.Observations P Z μ) :
    P.map (fun ω i => Z i ω) = Measure.pi fun _ => μ := by
  have _ : IsProbabilityMeasure P := hZ.indep.isProbabilityMeasure
  have h := (iIndepFun_iff_map_fun_eq_pi_map fun i => (hZ.measurable i).aemeasurable).1 hZ.indep
  rw [h]
  simp only [hZ.law]

/-- Two samples that are independent of each other: the function changes by at most `c` with an observation of the first one
and by at most `d` with an observation of the second one. -/
theorem deviation_two {X : Fin n → Ω → S} {Y : Fin m → Ω → S'} {μ : Measure S} {ν : Measure S'} [IsProbabilityMeasure μ]
    [IsProbabilityMeasure ν] (hX : Spec.Observations P X μ) (hY : Spec.Observations P Y ν)
    (hi : IndepFun (fun ω i => X i ω) (fun ω j => Y j ω) P) {K : Set S} {K' : Set S'} (hK : MeasurableSet K)
    (hK' : MeasurableSet K') (hμ : ∀ᵐ x ∂μ, x ∈ K) (hν : ∀ᵐ y ∂ν, y ∈ K') {f : (Fin n → S) × (Fin m → S') → ℝ}
    (hf : Measurable f) {c d : ℝ} (hc : 0 ≤ c) (hd : 0 ≤ d)
    (h1 : ∀ x y, (∀ i, x i ∈ K) → (∀ j, y j ∈ K') → ∀ i, ∀ s ∈ K, |f (x, y) - f (Function.update x i s, y)| ≤ c)
    (h2 : ∀ x y, (∀ i, x i ∈ K) → (∀ j, y j ∈ K') → ∀ j, ∀ s ∈ K', |f (x, y) - f (x, Function.update y j s)| ≤ d)
    {t : ℝ} (ht : 0 ≤ t) :
    P.real {ω | t ≤ |f (fun i => X i ω, fun j => Y j ω) - ∫ ω', f (fun i => X i ω', fun j => Y j ω') ∂P|}
      ≤ 2 * Real.exp (-(2 * t ^ 2) / (n * c ^ 2 + m * d ^ 2)) := by
  obtain ⟨x₀, hx₀⟩ := hμ.exists
  obtain ⟨y₀, hy₀⟩ := hν.exists
  obtain ⟨g, hg⟩ : ∃ g : (Fin n → S) × (Fin m → S') → ℝ,
      g = fun z => f (fun i => clip K x₀ (z.1 i), fun j => clip K' y₀ (z.2 j)) := ⟨_, rfl⟩
  have mg : Measurable g := by
    rw [hg]
    exact hf.comp (((clips_measurable hK x₀).comp measurable_fst).prodMk ((clips_measurable hK' y₀).comp measurable_snd))
  have d1 : ∀ y, BoundedDiff (fun x => g (x, y)) fun _ => c := fun y x i s => by
    simp only [hg]
    rw [clip_update]
    exact h1 _ _ (fun i => clip_mem hx₀ _) (fun j => clip_mem hy₀ _) i _ (clip_mem hx₀ _)
  have d2 : ∀ x, BoundedDiff (fun y => g (x, y)) fun _ => d := fun x y j s => by
    simp only [hg]
    rw [clip_update]
    exact h2 _ _ (fun i => clip_mem hx₀ _) (fun j => clip_mem hy₀ _) j _ (clip_mem hy₀ _)
  obtain ⟨C, hC⟩ : ∃ C, ∀ z, |g z| ≤ C := by
    refine ⟨|g (fun _ => x₀, fun _ => y₀)| + (∑ _ : Fin n, c) + ∑ _ : Fin m, d, fun z => ?_⟩
    have e1 := (d1 z.2).le_sum z.1 fun _ => x₀
    have e2 := (d2 fun _ => x₀).le_sum z.2 fun _ => y₀
    have e3 := abs_sub_le (g (z.1, z.2)) (g (fun _ => x₀, z.2)) (g (fun _ => x₀, fun _ => y₀))
    have e4 := abs_sub_abs_le_abs_sub (g (z.1, z.2)) (g (fun _ => x₀, fun _ => y₀))
    have e5 : (z.1, z.2) = z := rfl
    rw [e5] at e1 e3 e4
    linarith
  have key : Sub g ((∑ _ : Fin n, c ^ 2) / 4 + (∑ _ : Fin m, d ^ 2) / 4)
      ((Measure.pi fun _ : Fin n => μ).prod (Measure.pi fun _ : Fin m => ν)) := by
    refine sub_prod mg hC (fun y => ?_) ?_
    · exact mcdiarmid (fun _ => μ) (mg.comp measurable_prodMk_right) (fun x => hC _) (fun _ => hc) (d1 y)
    · have hm : Measurable fun y : Fin m → S' => ∫ x, g (x, y) ∂(Measure.pi fun _ : Fin n => μ) :=
        (mg.stronglyMeasurable.integral_prod_left' (μ := Measure.pi fun _ : Fin n => μ)).measurable
      have i1 : ∀ y, Integrable (fun x => g (x, y)) (Measure.pi fun _ : Fin n => μ) := fun y =>
        integrable_of_bdd (mg.comp measurable_prodMk_right) fun x => hC _
      refine mcdiarmid (fun _ => ν) (C := C) hm (fun y => ?_) (fun _ => hd) fun y j s => ?_
      · have := norm_integral_le_of_norm_le_const (μ := Measure.pi fun _ : Fin n => μ) (f := fun x => g (x, y)) (C := C)
          (Eventually.of_forall fun s => hC _)
        simpa using this
      · rw [← integral_sub (i1 y) (i1 _)]
        have := norm_integral_le_of_norm_le_const (μ := Measure.pi fun _ : Fin n => μ)
          (f := fun x => g (x, y) - g (x, Function.update y j s)) (C := d) (Eventually.of_forall fun x => d2 x y j s)
        simpa using this
  have mX : Measurable fun ω i => X i ω := measurable_pi_lambda _ hX.measurable
  have mY : Measurable fun ω j => Y j ω := measurable_pi_lambda _ hY.measurable
  have law : P.map (fun ω => ((fun i => X i ω), fun j => Y j ω))
      = (Measure.pi fun _ : Fin n => μ).prod (Measure.pi fun _ : Fin m => ν) := by
    rw [(indepFun_iff_map_prod_eq_prod_map_map mX.aemeasurable mY.aemeasurable).1 hi, law_pi hX, law_pi hY]
  have aX : ∀ᵐ ω ∂P, ∀ i, X i ω ∈ K := by
    rw [ae_all_iff]
    intro i
    rw [← hX.law i] at hμ
    exact ae_of_ae_map (hX.measurable i).aemeasurable hμ
  have aY : ∀ᵐ ω ∂P, ∀ j, Y j ω ∈ K' := by
    rw [ae_all_iff]
    intro j
    rw [← hY.law j] at hν
    exact ae_of_ae_map (hY.measurable j).aemeasurable hν
  have heq : ∀ᵐ ω ∂P, g (fun i => X i ω, fun j => Y j ω) = f (fun i => X i ω, fun j => Y j ω) := by
    filter_upwards [aX, aY] with ω hx hy
    rw [hg]
    simp only [clip_of_mem x₀ (hx _), clip_of_mem y₀ (hy _)]
  have hint : ∫ z, g z ∂((Measure.pi fun _ : Fin n => μ).prod (Measure.pi fun _ : Fin m => ν))
      = ∫ ω', f (fun i => X i ω', fun j => Y j ω') ∂P := by
    rw [← law, integral_map (mX.prodMk mY).aemeasurable mg.aestronglyMeasurable]
    exact integral_congr_ae heq
  have tail := key.tail mg hC (by positivity) ht
  rw [hint, ← law, map_measureReal_apply (mX.prodMk mY)
    (measurableSet_le measurable_const ((mg.sub_const _).abs))] at tail
  have e : P.real {ω | t ≤ |f (fun i => X i ω, fun j => Y j ω) - ∫ ω', f (fun i => X i ω', fun j => Y j ω') ∂P|}
      = P.real ((fun ω => ((fun i => X i ω), fun j => Y j ω)) ⁻¹'
        {a | t ≤ |g a - ∫ ω', f (fun i => X i ω', fun j => Y j ω') ∂P|}) := by
    refine measureReal_congr ?_
    filter_upwards [heq] with ω h
    refine propext ?_
    change t ≤ _ ↔ t ≤ _
    rw [h]
  rw [e]
  refine tail.trans (le_of_eq ?_)
  congr 2
  simp only [sum_const, card_univ, Fintype.card_fin, nsmul_eq_mul]
  rw [show 2 * ((n : ℝ) * c ^ 2 / 4 + m * d ^ 2 / 4) = (n * c ^ 2 + m * d ^ 2) / 2 by ring, div_div_eq_mul_div]
  ring

/-- One sample: the function changes by at most `c` with an observation. -/
theorem deviation {Z : Fin n → Ω → S} {μ : Measure S} [IsProbabilityMeasure μ] (hZ : Spec.Observations P Z μ) {K : Set S}
    (hK : MeasurableSet K) (hμ : ∀ᵐ z ∂μ, z ∈ K) {f : (Fin n → S) → ℝ} (hf : Measurable f) {c : ℝ} (hc : 0 ≤ c)
    (h : ∀ z, (∀ i, z i ∈ K) → ∀ i, ∀ s ∈ K, |f z - f (Function.update z i s)| ≤ c) {t : ℝ} (ht : 0 ≤ t) :
    P.real {ω | t ≤ |f (fun i => Z i ω) - ∫ ω', f (fun i => Z i ω') ∂P|} ≤ 2 * Real.exp (-(2 * t ^ 2) / (n * c ^ 2)) := by
  have hY : Spec.Observations P (fun (_ : Fin 0) (_ : Ω) => ()) (Measure.dirac ()) :=
    ⟨fun i => i.elim0, fun i => i.elim0, by
      rw [iIndepFun_iff_map_fun_eq_pi_map fun i => i.elim0]
      have : (fun (ω : Ω) (i : Fin 0) => ()) = fun _ => (fun _ => ()) := rfl
      rw [this, Measure.map_const]
      simp [Measure.pi_of_empty (fun _ => Measure.dirac ()) (fun _ => ())]⟩
  have := deviation_two hZ hY (indepFun_const_right _ _) hK MeasurableSet.univ hμ
    (Eventually.of_forall fun _ => Set.mem_univ _) (f := fun z => f z.1) (hf.comp measurable_fst) hc le_rfl
    (fun x y hx _ i s hs => h x hx i s hs) (fun x y _ _ j => j.elim0) ht
  simpa using this

end Dcor.Concentration

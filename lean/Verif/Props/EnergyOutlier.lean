/-
Property C122: the energy distance and the energy test of samples with one observation that is far away.
-/
import Verif.Proofs.EnergyOutlier
import Verif.Props.Energy
import Verif.Props.TestInvariance
import Verif.Props.FloatEnergyAccuracy
import Verif.Proofs.Exchange
import Verif.Props.Resampling

namespace Dcor.Props

open Finset Filter Topology

variable {n m p k N : ℕ} {sz : Fin k → ℕ} {α : ℝ} {env : Env} {nJobs : Option ℤ} {i : Fin n} {u : Fin p → ℝ}

private theorem dist_zero_pos (hα : 0 < α) {u : Fin p → ℝ} (hu : u ≠ 0) : 0 < Spec.dist α u 0 := by
  refine lt_of_le_of_ne (Spec.dist_nonneg _ _ _) fun e => hu ?_
  have h := (Spec.distMat_eq_zero hα ![u, 0]).1 (by
    funext k l
    fin_cases k <;> fin_cases l
    · exact Spec.dist_self hα.ne' _
    · exact e.symm
    · exact (Spec.dist_symm _ _ _).trans e.symm
    · exact Spec.dist_self hα.ne' _) 0 1
  exact h

/-- C122: with V-statistics, the default, the energy distance has no bound on the influence of one observation. If an
observation of a sample of `n` moves away, then the energy distance divided by the power `α` of the distance moved tends to
`2 ‖u‖ ^ α / n ^ 2`, whatever the other observations are. -/
theorem C122_v_statistic {X : Fin n → Fin p → ℝ} {Y : Fin m → Fin p → ℝ} (hα : 0 < α) (hm : 0 < m) {ε : ℝ} (hε : 0 < ε) :
    ∀ᶠ t in atTop, ∀ x y o, o.exponent = α → o.stat.resolve env = .ok .v → EnergyCall x y o (Spec.moved X i u t) Y →
      ∃ r kd, (energyDistance env x y o).out = .ok ⟨.fin r, kd⟩ ∧
        |r / t ^ α - 2 * Spec.dist α u 0 / n ^ 2| < ε := by
  have hn : 0 < n := i.pos
  have hn' : (n : ℝ) ≠ 0 := by positivity
  have hY : Tendsto (fun t : ℝ => fun (j : Fin m) c => t⁻¹ * Y j c) atTop (𝓝 fun _ _ => 0) := by
    refine tendsto_pi_nhds.2 fun j => tendsto_pi_nhds.2 fun c => ?_
    have h : Tendsto (fun t : ℝ => t⁻¹ * Y j c) atTop (𝓝 (0 * Y j c)) := tendsto_inv_atTop_zero.mul_const _
    rwa [zero_mul] at h
  have hXY : Tendsto (fun t : ℝ => Sum.elim (fun i' c => t⁻¹ * Spec.moved X i u t i' c) fun (j : Fin m) c => t⁻¹ * Y j c)
      atTop (𝓝 (Sum.elim (Spec.spike i u) fun _ _ => 0)) := by
    refine tendsto_pi_nhds.2 fun r => ?_
    rcases r with r | r
    · exact (tendsto_pi_nhds.1 (Spec.moved_tendsto X i u)) r
    · exact (tendsto_pi_nhds.1 hY) r
  have h := ((Spec.continuous_energyV (p := p) hα.le (Sum.inl : Fin n → Fin n ⊕ Fin m) Sum.inr).tendsto _).comp hXY
  have e : Spec.energyV α (Spec.spike i u) (fun (_ : Fin m) _ => 0) = 2 * Spec.dist α u 0 / n ^ 2 := by
    have e1 : Spec.spike i u = fun l c => (if l = i then 1 else 0) * u c := by
      funext l c; simp [Spec.spike]
    have e2 : (fun (_ : Fin m) (_ : Fin p) => (0 : ℝ)) = fun _ c => 0 * u c := by simp
    rw [e1, e2, Spec.energyV_zero_one hα.ne' hn hm u (fun l => by split_ifs <;> simp) (fun _ => Or.inl rfl), Spec.share,
      Spec.share]
    simp
    ring
  have e' : Spec.energyV α (fun i_1 => Sum.elim (Spec.spike i u) (fun _ _ => 0) (Sum.inl i_1 : Fin n ⊕ Fin m))
      (fun j => Sum.elim (Spec.spike i u) (fun _ _ => 0) (Sum.inr j : Fin n ⊕ Fin m)) = 2 * Spec.dist α u 0 / n ^ 2 := e
  rw [e'] at h
  filter_upwards [h.eventually (Metric.ball_mem_nhds _ hε), eventually_gt_atTop 0] with t hr ht x y o ho hs hc
  subst ho
  refine ⟨_, _, congrArg PyM.out (energyDistance_v hc hs hn hm), ?_⟩
  rw [Spec.energyV_scale ht, mul_div_cancel_left₀ _ (Real.rpow_pos_of_pos ht _).ne']
  exact hr

/-- C122: with V-statistics the energy distance tends to infinity with the distance of the outlier. -/
theorem C122_v_unbounded {X : Fin n → Fin p → ℝ} {Y : Fin m → Fin p → ℝ} (hα : 0 < α) (hm : 0 < m) (hu : u ≠ 0) (B : ℝ) :
    ∀ᶠ t in atTop, ∀ x y o, o.exponent = α → o.stat.resolve env = .ok .v → EnergyCall x y o (Spec.moved X i u t) Y →
      ∃ r kd, (energyDistance env x y o).out = .ok ⟨.fin r, kd⟩ ∧ B < r := by
  have hn : (0 : ℝ) < n := by have := i.pos; exact_mod_cast this
  have hd := dist_zero_pos hα hu
  have hε : 0 < Spec.dist α u 0 / n ^ 2 := by positivity
  filter_upwards [C122_v_statistic (X := X) (Y := Y) (i := i) (u := u) (env := env) hα hm hε, eventually_gt_atTop 0,
    (tendsto_rpow_atTop hα).eventually_gt_atTop (B / (Spec.dist α u 0 / n ^ 2))] with t h ht hB x y o ho hs hc
  obtain ⟨r, kd, h1, h2⟩ := h x y o ho hs hc
  refine ⟨r, kd, h1, ?_⟩
  have ht' := Real.rpow_pos_of_pos ht α
  rw [div_lt_iff₀ hε] at hB
  have h3 := (abs_lt.1 h2).1
  have h4 : Spec.dist α u 0 / n ^ 2 < r / t ^ α := by
    have : 2 * Spec.dist α u 0 / n ^ 2 = Spec.dist α u 0 / n ^ 2 + Spec.dist α u 0 / n ^ 2 := by ring
    linarith
  rw [lt_div_iff₀ ht'] at h4
  linarith

/-- C122: with U-statistics and an exponent of at most 1 the influence of every observation is bounded. If one observation of a
sample of `n` is replaced by any other value, however far away, then the energy distance changes by at most `4 / n` times the
largest distance between the other observations of the sample and those of the second sample. -/
theorem C122_u_statistic {X : Fin n → Fin p → ℝ} {Y : Fin m → Fin p → ℝ} {x x' y : Arr} {o : EnergyOpts} {z : Fin p → ℝ}
    (h0 : 0 < o.exponent) (h1 : o.exponent ≤ 1) (hn : 2 ≤ n) (hm : 2 ≤ m) (hs : o.stat.resolve env = .ok .u)
    (hc : EnergyCall x y o X Y) (hc' : EnergyCall x' y o (Function.update X i z) Y) {D : ℝ}
    (hD : ∀ l, l ≠ i → ∀ j, Spec.dist o.exponent (X l) (Y j) ≤ D) :
    ∃ r r' kd kd', (energyDistance env x y o).out = .ok ⟨.fin r, kd⟩ ∧
      (energyDistance env x' y o).out = .ok ⟨.fin r', kd'⟩ ∧ |r' - r| ≤ 4 * D / n :=
  ⟨_, _, _, _, congrArg PyM.out (energyDistance_u hc hs hn hm), congrArg PyM.out (energyDistance_u hc' hs hn hm),
    Spec.energyU_replace h0 h1 hn (by omega) X Y i z hD⟩

private theorem pvalue_replay {S : ℕ} (σ : Fin N → Equiv.Perm (Fin S)) (T0 : ℝ) (T : Equiv.Perm (Fin S) → ℝ) :
    Spec.permPvalue (.fin T0) (fun k => .fin (T (permAt (Rng.replay σ) S 0 k))) N
      = (((univ.filter fun k => T0 < T (σ k)).card : ℝ) + 1) / (N + 1) := by
  classical
  have e : Spec.countAbove (.fin T0) (fun k => .fin (T (permAt (Rng.replay σ) S 0 k))) N
      = (univ.filter fun k => T0 < T (σ k)).card := by
    unfold Spec.countAbove
    rw [card_filter, card_filter, ← Fin.sum_univ_eq_sum_range
      (fun k => if FP.lt (.fin T0) (.fin (T (permAt (Rng.replay σ) S 0 k))) then 1 else 0)]
    refine sum_congr rfl fun k _ => ?_
    rw [permAt_replay]
    rfl
  rw [Spec.permPvalue, e]

/-- C122: the permutation test. If one observation of the sample `g` moves away, then from some distance on `energy_test` only
compares the sizes of the samples in which the outlier lies. If `g` is smaller than all other samples, then the p-value is at most
`(1 + f) / (N + 1)`, where `f` is the number of drawn permutations that leave the outlier in the sample `g`; if it is larger than
all other samples, then the p-value is at least `(1 + N - f) / (N + 1)`. Both hold for all other observations. -/
theorem C122_test {X : (a : Fin k) → Fin (sz a) → Fin p → ℝ} {g : Fin k} {i : Fin (sz g)} (hα : 0 < α) (hu : u ≠ 0)
    (hj : nJobs ≠ some 0) :
    ∀ᶠ t in atTop, ∀ A o, o.exponent = α → o.stat.resolve env = .ok .v → EnergyTestCall A o (Spec.movedIn X g i u t) →
      ∀ σ : Fin N → Equiv.Perm (Fin (∑ a, sz a)), ∃ pv T s,
        (energyTest env (Rng.replay σ) (List.ofFn A) N o (.gen 0) nJobs).out = .ok (⟨pv, .fin T⟩, s) ∧
        ((∀ a, a ≠ g → sz g < sz a) →
          pv ≤ (((univ.filter fun l => Spec.sampleOf sz (σ l) g i = g).card : ℝ) + 1) / (N + 1)) ∧
        ((∀ a, a ≠ g → sz a < sz g) →
          (((univ.filter fun l => Spec.sampleOf sz (σ l) g i ≠ g).card : ℝ) + 1) / (N + 1) ≤ pv) := by
  classical
  by_cases hsz : ∀ a, 0 < sz a
  swap
  · refine Eventually.of_forall fun t A o _ _ hc => absurd (fun a => ?_) hsz
    exact hc.pos a
  have hd := dist_zero_pos hα hu
  have hev : ∀ᶠ t in atTop, ∀ π π' : Equiv.Perm (Fin (∑ a, sz a)),
      sz (Spec.sampleOf sz π' g i) < sz (Spec.sampleOf sz π g i) →
      Spec.energyTestVal .v α (fun a j c => t⁻¹ * Spec.relabel (Spec.movedIn X g i u t) π a j c)
        < Spec.energyTestVal .v α (fun a j c => t⁻¹ * Spec.relabel (Spec.movedIn X g i u t) π' a j c) := by
    refine eventually_all.2 fun π => eventually_all.2 fun π' => ?_
    by_cases h : sz (Spec.sampleOf sz π' g i) < sz (Spec.sampleOf sz π g i)
    · refine ((Spec.energyTestVal_tendsto hα hsz X g i u π).eventually_lt
        (Spec.energyTestVal_tendsto hα hsz X g i u π') ?_).mono fun _ h _ => h
      exact mul_lt_mul_of_pos_left (Spec.outlierWeight_lt hsz h) (by positivity)
    · exact Eventually.of_forall fun _ h' => absurd h' h
  filter_upwards [hev, eventually_gt_atTop 0] with t hlt ht A o ho hs hc σ
  subst ho
  have ht' := Real.rpow_pos_of_pos ht o.exponent
  set f : Equiv.Perm (Fin (∑ a, sz a)) → ℝ := fun π =>
    Spec.energyTestVal .v o.exponent (Spec.relabel (Spec.movedIn X g i u t) π) with hf
  have hstat : ∀ π π', sz (Spec.sampleOf sz π' g i) < sz (Spec.sampleOf sz π g i) → f π < f π' := by
    intro π π' h
    rw [hf]
    show Spec.energyTestVal .v o.exponent (Spec.relabel (Spec.movedIn X g i u t) π)
      < Spec.energyTestVal .v o.exponent (Spec.relabel (Spec.movedIn X g i u t) π')
    rw [Spec.energyTestVal_scale ht, Spec.energyTestVal_scale ht (Spec.relabel _ π')]
    exact mul_lt_mul_of_pos_left (hlt π π' h) ht'
  have h1 : Spec.energyTestVal .v o.exponent (Spec.movedIn X g i u t) = f 1 := by
    rw [hf]
    show _ = Spec.energyTestVal .v o.exponent (Spec.relabel (Spec.movedIn X g i u t) (Equiv.refl _))
    rw [relabel_refl]
  have hout := congrArg PyM.out (energyTest_ok (rng := Rng.replay σ) (rs := .gen 0) hc hs hj N)
  simp only [Spec.energyTestStat_eq .v _ _ (fun a => hsz a), h1] at hout
  have hp := pvalue_replay σ (f 1) f
  refine ⟨_, _, _, hout, fun h => ?_, fun h => ?_⟩
  · refine hp.trans_le ?_
    have hc : (univ.filter fun l => f 1 < f (σ l)).card ≤ (univ.filter fun l => Spec.sampleOf sz (σ l) g i = g).card := by
      refine card_le_card fun l hl => ?_
      rw [mem_filter] at hl ⊢
      refine ⟨mem_univ _, ?_⟩
      by_contra hne
      refine lt_asymm hl.2 (hstat _ _ ?_)
      rw [Spec.sampleOf_one]
      exact h _ hne
    have hc' : ((univ.filter fun l => f 1 < f (σ l)).card : ℝ)
      ≤ (univ.filter fun l => Spec.sampleOf sz (σ l) g i = g).card := by exact_mod_cast hc
    gcongr
  · refine le_trans ?_ hp.ge
    have hc : (univ.filter fun l => Spec.sampleOf sz (σ l) g i ≠ g).card ≤ (univ.filter fun l => f 1 < f (σ l)).card := by
      refine card_le_card fun l hl => ?_
      rw [mem_filter] at hl ⊢
      refine ⟨mem_univ _, hstat _ _ ?_⟩
      rw [Spec.sampleOf_one]
      exact h _ hl.2
    have hc' : ((univ.filter fun l => Spec.sampleOf sz (σ l) g i ≠ g).card : ℝ)
      ≤ (univ.filter fun l => f 1 < f (σ l)).card := by exact_mod_cast hc
    gcongr

/-- Two equal samples, one of whose observations moves away. -/
example : ∀ᶠ t : ℝ in atTop, ∃ r kd, (energyDistance stdEnv (npMat (Spec.moved (fun _ : Fin 5 => ![(0 : ℝ)]) 2 ![1] t))
    (npMat fun _ : Fin 5 => ![(0 : ℝ)]) ⟨1, none, .enum .v⟩).out = .ok ⟨.fin r, kd⟩ ∧ 1000 < r := by
  refine (C122_v_unbounded (env := stdEnv) (α := 1) one_pos (by norm_num) (fun e => ?_) 1000).mono fun t h =>
    h _ _ _ rfl rfl (energyCall_mat _ _ zero_le_one _)
  have := congrFun e 0
  norm_num at this

/-- With U-statistics the distance of the same samples stays within 4/5 of the one without the outlier. -/
example (z : ℝ) := C122_u_statistic (env := stdEnv) (i := (2 : Fin 5)) (z := ![z]) (o := ⟨1, none, .enum .u⟩) (D := 1)
  one_pos le_rfl (by norm_num) (by norm_num) rfl
  (energyCall_mat (fun _ : Fin 5 => ![(0 : ℝ)]) (fun _ : Fin 5 => ![(1 : ℝ)]) zero_le_one _)
  (energyCall_mat (Function.update (fun _ : Fin 5 => ![(0 : ℝ)]) 2 ![z]) (fun _ : Fin 5 => ![(1 : ℝ)]) zero_le_one _)
  (fun _ _ _ => by rw [Spec.dist, Fin.sum_univ_one, Real.rpow_one, Real.sqrt_sq_eq_abs]; norm_num)

/-- The exchange of the outlier with the second observation of the other sample. -/
private def exchange : Equiv.Perm (Fin (∑ a, (![5, 3] : Fin 2 → ℕ) a)) :=
  Equiv.swap (finSigmaFinEquiv ⟨0, (2 : Fin 5)⟩) (finSigmaFinEquiv ⟨1, (1 : Fin 3)⟩)

/-- The two samples, of five and of three observations, are ten apart, but one observation of the larger one is an outlier: with
permutations that move it to the other sample the p-value is 1. -/
example : ∀ᶠ t : ℝ in atTop, ∃ pv T s,
    (energyTest stdEnv (Rng.replay fun _ : Fin 9 => exchange)
      (List.ofFn fun a => npMat (Spec.movedIn (sz := ![5, 3]) (fun a _ => ![10 * (a : ℝ)]) 0 (2 : Fin 5) ![1] t a)) 9
      ⟨1, none, .enum .v⟩ (.gen 0) none).out = .ok (⟨pv, .fin T⟩, s) ∧ 1 ≤ pv := by
  refine (C122_test (env := stdEnv) (nJobs := none) (α := 1) (N := 9) (sz := ![5, 3]) (g := 0) (i := (2 : Fin 5)) (u := ![1])
    (X := fun a _ => ![10 * (a : ℝ)]) one_pos (fun e => ?_) (by simp)).mono fun t h => ?_
  · have := congrFun e 0
    norm_num at this
  · obtain ⟨pv, T, s, h1, -, h2⟩ := h _ ⟨1, none, .enum .v⟩ rfl rfl
      (energyTestCall_mat le_rfl (fun a => by fin_cases a <;> simp) _ zero_le_one _) fun _ => exchange
    refine ⟨pv, T, s, h1, ?_⟩
    have h3 := h2 fun a ha => by
      fin_cases a
      · exact absurd rfl ha
      · simp
    have hx : Spec.sampleOf ![5, 3] exchange 0 (2 : Fin 5) ≠ 0 := by
      have : exchange.symm (finSigmaFinEquiv ⟨0, (2 : Fin 5)⟩) = finSigmaFinEquiv ⟨1, (1 : Fin 3)⟩ := Equiv.swap_apply_left _ _
      unfold Spec.sampleOf
      rw [this, Equiv.symm_apply_apply]
      simp
    rw [filter_true_of_mem fun k _ => hx] at h3
    norm_num at h3
    exact h3

end Dcor.Props

/-
Property C102: the level of the permutation tests for random data.
-/
import Verif.Proofs.RandomLevel
import Verif.Props.Unbiasedness

namespace Dcor.Props

open Finset MeasureTheory ProbabilityTheory

variable {env : Env} {nJobs : Option ℤ} {p q n B : ℕ} {α : ℝ} {Ω : Type*} {mΩ : MeasurableSpace Ω} {P : Measure Ω}
  [IsProbabilityMeasure P]

theorem card_perm_fin (n : ℕ) : (Fintype.card (Equiv.Perm (Fin n)) : ℝ) = n.factorial := by
  rw [Fintype.card_perm, Fintype.card_fin]

/-! ### Distance covariance test -/

section Dcov

theorem measurable_dcovStat (hα : 0 ≤ α) :
    Measurable fun d : Fin n → (Fin p → ℝ) × (Fin q → ℝ) => Spec.dcovStat α (fun i => (d i).1) fun i => (d i).2 := by
  have h1 (i j : Fin n) : Measurable fun d : Fin n → (Fin p → ℝ) × (Fin q → ℝ) => Spec.dist α (d i).1 (d j).1 := by
    have h := (Charac.dist_continuous hα).measurable.comp
      (by fun_prop : Measurable fun d : Fin n → (Fin p → ℝ) × (Fin q → ℝ) => ((d i).1, (d j).1))
    simp only [Function.comp_def] at h
    exact h
  have h2 (i j : Fin n) : Measurable fun d : Fin n → (Fin p → ℝ) × (Fin q → ℝ) => Spec.dist α (d i).2 (d j).2 := by
    have h := (Charac.dist_continuous hα).measurable.comp
      (by fun_prop : Measurable fun d : Fin n → (Fin p → ℝ) × (Fin q → ℝ) => ((d i).2, (d j).2))
    simp only [Function.comp_def] at h
    exact h
  unfold Spec.dcovStat Spec.dcovSqr Spec.centre Spec.distMat
  fun_prop

/-- C102: for independent observations of independent variables `distance_covariance_test` returns a p-value of at most
`k / (B + 1)` with a probability above `k / (B + 1)`. The probability is higher by at most the one of a resampled statistic that
is equal to the observed one. -/
theorem C102_dcov_level {Z : Fin n → Ω → (Fin p → ℝ) × (Fin q → ℝ)} {μ : Measure ((Fin p → ℝ) × (Fin q → ℝ))}
    [IsProbabilityMeasure μ] (hα : 0 ≤ α) (hj : nJobs ≠ some 0) (hZ : Spec.Observations P Z μ)
    (hi : IndepFun Prod.fst Prod.snd μ) :
    ∃ (T : Ω → Equiv.Perm (Fin n) → ℝ) (pv : Ω → (Fin B → Equiv.Perm (Fin n)) → ℝ),
      (∀ ω σ π x y, DcovTestCall x y α (fun i => (Z (π i) ω).1) (fun i => (Z i ω).2) →
        ∃ r s, (distanceCovarianceTest env (Rng.replay σ) x y B α (.gen 0) nJobs).out = .ok (r, s) ∧
          r.statistic = .fin (T ω π) ∧ (π = 1 → r.pvalue = pv ω σ)) ∧
      (∀ k : ℕ, 0 < k → k ≤ B →
        (k : ℝ) / (B + 1) < (∑ σ, P.real {ω | pv ω σ ≤ (k : ℝ) / (B + 1)}) / (n.factorial : ℝ) ^ B) ∧
      ∀ k : ℕ, (∑ σ, P.real {ω | pv ω σ ≤ (k : ℝ) / (B + 1)}) / (n.factorial : ℝ) ^ B
        ≤ (k : ℝ) / (B + 1)
          + (∑ σ : Fin B → Equiv.Perm (Fin n), P.real {ω | ∃ i, T ω (σ i) = T ω 1}) / (n.factorial : ℝ) ^ B := by
  have hl := RandomLevel.law_observations hZ
  obtain ⟨act, hact⟩ : ∃ act : Equiv.Perm (Fin n) → (Fin n → (Fin p → ℝ) × (Fin q → ℝ)) →
      Fin n → (Fin p → ℝ) × (Fin q → ℝ), act = fun π d i => ((d (π i)).1, (d i).2) := ⟨_, rfl⟩
  obtain ⟨T, hT⟩ : ∃ T : (Fin n → (Fin p → ℝ) × (Fin q → ℝ)) → ℝ,
      T = fun d => Spec.dcovStat α (fun i => (d i).1) fun i => (d i).2 := ⟨_, rfl⟩
  have mT : Measurable T := hT ▸ measurable_dcovStat hα
  have hinv (π : Equiv.Perm (Fin n)) : MeasurePreserving (act π) (Measure.pi fun _ => μ) (Measure.pi fun _ => μ) := by
    rw [hact]
    exact RandomLevel.permute_fst_preserving hi π
  have hmul (π σ : Equiv.Perm (Fin n)) (d) : act σ (act π d) = act (π * σ) d := by
    rw [hact]
    rfl
  have h1 (d : Fin n → (Fin p → ℝ) × (Fin q → ℝ)) : act 1 d = d := by
    rw [hact]
    rfl
  have key (k : ℕ) := RandomLevel.level (B := B) (k := k) mT hinv hmul
  have e1 (k : ℕ) (σ : Fin B → Equiv.Perm (Fin n)) :
      P.real {ω | RandomLevel.pvalue act T (fun i => Z i ω) σ ≤ (k : ℝ) / (B + 1)}
        = (Measure.pi fun _ => μ).real {d | RandomLevel.pvalue act T d σ ≤ (k : ℝ) / (B + 1)} :=
    hl.measureReal_preimage (measurableSet_le (RandomLevel.measurable_pvalue mT (fun π => (hinv π).measurable) σ)
      measurable_const).nullMeasurableSet
  have e2 (σ : Fin B → Equiv.Perm (Fin n)) :
      P.real {ω | ∃ i, T (act (σ i) fun i => Z i ω) = T (act 1 fun i => Z i ω)}
        = (Measure.pi fun _ => μ).real {d | ∃ i, T (act (σ i) d) = T d} := by
    simp only [h1]
    exact hl.measureReal_preimage
      (RandomLevel.measurableSet_tie mT (fun π => (hinv π).measurable) σ).nullMeasurableSet
  refine ⟨fun ω π => T (act π fun i => Z i ω), fun ω σ => RandomLevel.pvalue act T (fun i => Z i ω) σ,
    fun ω σ π x y hc => ?_, fun k hk hkB => ?_, fun k => ?_⟩
  · refine ⟨_, _, congrArg PyM.out (distanceCovarianceTest_ok hc hj B), ?_, ?_⟩
    · rw [hT, hact]
    · rintro rfl
      have h := RandomLevel.pvalue_eq (act := act) (T := T) (fun i => Z i ω) σ (fun i => .fin (Spec.dcovStat α
        (fun k => (Z (permAt (Rng.replay σ) n 0 i k) ω).1) fun i => (Z i ω).2)) fun i => by
          rw [permAt_replay, hT, hact]
      refine Eq.trans ?_ h.symm
      rw [hT]
      rfl
  · have h := (key k).1 hk hkB
    simp only [← e1, card_perm_fin] at h
    exact h
  · have h := (key k).2
    simp only [← e1, ← e2, card_perm_fin] at h
    exact h

/-- C102: the extreme case are two observations: the p-value is always the smallest possible one. -/
theorem C102_dcov_two_observations {S : Type} {rng : Rng S} {rs : RandomLike S} {x y : Arr} {X : Fin 2 → Fin p → ℝ}
    {Y : Fin 2 → Fin q → ℝ} (hc : DcovTestCall x y α X Y) (hj : nJobs ≠ some 0) (B : ℕ) :
    ∃ r s, (distanceCovarianceTest env rng x y B α rs nJobs).out = .ok (r, s) ∧ r.pvalue = 1 / ((B : ℝ) + 1) := by
  refine ⟨_, _, congrArg PyM.out (distanceCovarianceTest_ok hc hj B), ?_⟩
  have hd (u v : Fin p → ℝ) : Spec.dist α u u = Spec.dist α v v := by simp [Spec.dist]
  have h (π : Equiv.Perm (Fin 2)) : Spec.dcovStat α (fun k => X (π k)) Y = Spec.dcovStat α X Y := by
    unfold Spec.dcovStat
    congr 2
    funext i j
    show Spec.dist α (X (π i)) (X (π j)) = Spec.dist α (X i) (X j)
    rcases eq_or_ne i j with rfl | hij
    · exact hd _ _
    · have h1 : π i ≠ π j := fun e => hij (π.injective e)
      rcases eq_or_ne (π i) i with e | e
      · have : π j = j := by omega
        rw [e, this]
      · have e1 : π i = j := by omega
        have e2 : π j = i := by omega
        rw [e1, e2, Spec.dist_symm]
  simp only [h]
  simp [Spec.permPvalue, Spec.countAbove, FP.lt]

end Dcov

/-! ### Energy test -/

section Energy

variable {c : ℕ} {sz : Fin c → ℕ} {o : EnergyOpts}

/-- The samples of which a pooled sample consists. -/
def split (sz : Fin c → ℕ) (d : Fin (∑ a, sz a) → Fin p → ℝ) (a : Fin c) (i : Fin (sz a)) : Fin p → ℝ :=
  d (finSigmaFinEquiv ⟨a, i⟩)

theorem pooled_split (d : Fin (∑ a, sz a) → Fin p → ℝ) : Spec.pooled (split sz d) = d := by
  funext i
  unfold Spec.pooled split
  rw [Sigma.eta, Equiv.apply_symm_apply]

theorem relabel_split (d : Fin (∑ a, sz a) → Fin p → ℝ) (σ : Equiv.Perm (Fin (∑ a, sz a))) :
    Spec.relabel (split sz d) σ = split sz fun i => d (σ i) := by
  funext a i
  unfold Spec.relabel
  rw [pooled_split]
  rfl

theorem measurable_energyTestVal (hα : 0 ≤ α) (s : EstStat) :
    Measurable fun d : Fin (∑ a, sz a) → Fin p → ℝ => Spec.energyTestVal s α (split sz d) := by
  have h (i j : Fin (∑ a, sz a)) : Measurable fun d : Fin (∑ a, sz a) → Fin p → ℝ => Spec.dist α (d i) (d j) := by
    have h := (Charac.dist_continuous hα).measurable.comp
      (by fun_prop : Measurable fun d : Fin (∑ a, sz a) → Fin p → ℝ => (d i, d j))
    simp only [Function.comp_def] at h
    exact h
  cases s <;>
  · unfold Spec.energyTestVal Spec.energyVal Spec.energyV Spec.energyU Spec.crossMean Spec.pairMean split
    fun_prop

/-- C102: for independent samples of the same distribution `energy_test`, with V- and with U-statistics, returns a p-value of at
most `k / (B + 1)` with a probability above `k / (B + 1)`. The probability is higher by at most the one of a resampled statistic
that is equal to the observed one. -/
theorem C102_energy_level {W : Fin (∑ a, sz a) → Ω → Fin p → ℝ} {μ : Measure (Fin p → ℝ)} [IsProbabilityMeasure μ]
    (hα : 0 ≤ o.exponent) (hj : nJobs ≠ some 0) {st : EstStat} (hs : o.stat.resolve env = .ok st)
    (hsz : ∀ a, Spec.minSize st ≤ sz a) (hW : Spec.Observations P W μ) :
    ∃ (T : Ω → Equiv.Perm (Fin (∑ a, sz a)) → ℝ) (pv : Ω → (Fin B → Equiv.Perm (Fin (∑ a, sz a))) → ℝ),
      (∀ ω σ π A, EnergyTestCall A o (split sz fun i => W (π i) ω) →
        ∃ r s, (energyTest env (Rng.replay σ) (List.ofFn A) B o (.gen 0) nJobs).out = .ok (r, s) ∧
          r.statistic = .fin (T ω π) ∧ (π = 1 → r.pvalue = pv ω σ)) ∧
      (∀ k : ℕ, 0 < k → k ≤ B →
        (k : ℝ) / (B + 1) < (∑ σ, P.real {ω | pv ω σ ≤ (k : ℝ) / (B + 1)}) / ((∑ a, sz a).factorial : ℝ) ^ B) ∧
      ∀ k : ℕ, (∑ σ, P.real {ω | pv ω σ ≤ (k : ℝ) / (B + 1)}) / ((∑ a, sz a).factorial : ℝ) ^ B
        ≤ (k : ℝ) / (B + 1) + (∑ σ : Fin B → Equiv.Perm (Fin (∑ a, sz a)), P.real {ω | ∃ i, T ω (σ i) = T ω 1})
          / ((∑ a, sz a).factorial : ℝ) ^ B := by
  have hl := RandomLevel.law_observations hW
  obtain ⟨act, hact⟩ : ∃ act : Equiv.Perm (Fin (∑ a, sz a)) → (Fin (∑ a, sz a) → Fin p → ℝ) → Fin (∑ a, sz a) → Fin p → ℝ,
      act = fun π d i => d (π i) := ⟨_, rfl⟩
  obtain ⟨T, hT⟩ : ∃ T : (Fin (∑ a, sz a) → Fin p → ℝ) → ℝ,
      T = fun d => Spec.energyTestVal st o.exponent (split sz d) := ⟨_, rfl⟩
  have mT : Measurable T := hT ▸ measurable_energyTestVal hα st
  have hinv (π : Equiv.Perm (Fin (∑ a, sz a))) : MeasurePreserving (act π) (Measure.pi fun _ => μ) (Measure.pi fun _ => μ) := by
    rw [hact]
    exact RandomLevel.permute_preserving π
  have hmul (π σ : Equiv.Perm (Fin (∑ a, sz a))) (d) : act σ (act π d) = act (π * σ) d := by
    rw [hact]
    rfl
  have h1 (d : Fin (∑ a, sz a) → Fin p → ℝ) : act 1 d = d := by
    rw [hact]
    rfl
  have key (k : ℕ) := RandomLevel.level (B := B) (k := k) mT hinv hmul
  have e1 (k : ℕ) (σ : Fin B → Equiv.Perm (Fin (∑ a, sz a))) :
      P.real {ω | RandomLevel.pvalue act T (fun i => W i ω) σ ≤ (k : ℝ) / (B + 1)}
        = (Measure.pi fun _ => μ).real {d | RandomLevel.pvalue act T d σ ≤ (k : ℝ) / (B + 1)} :=
    hl.measureReal_preimage (measurableSet_le (RandomLevel.measurable_pvalue mT (fun π => (hinv π).measurable) σ)
      measurable_const).nullMeasurableSet
  have e2 (σ : Fin B → Equiv.Perm (Fin (∑ a, sz a))) :
      P.real {ω | ∃ i, T (act (σ i) fun i => W i ω) = T (act 1 fun i => W i ω)}
        = (Measure.pi fun _ => μ).real {d | ∃ i, T (act (σ i) d) = T d} := by
    simp only [h1]
    exact hl.measureReal_preimage
      (RandomLevel.measurableSet_tie mT (fun π => (hinv π).measurable) σ).nullMeasurableSet
  refine ⟨fun ω π => T (act π fun i => W i ω), fun ω σ => RandomLevel.pvalue act T (fun i => W i ω) σ,
    fun ω σ π A hc => ?_, fun k hk hkB => ?_, fun k => ?_⟩
  · refine ⟨_, _, congrArg PyM.out (energyTest_ok hc hs hj B), ?_, ?_⟩
    · rw [hT, hact]
      exact Spec.energyTestStat_eq _ _ _ hsz
    · rintro rfl
      have h := RandomLevel.pvalue_eq (act := act) (T := T) (fun i => W i ω) σ (fun i => .fin (Spec.energyTestVal st o.exponent
        (split sz fun k => W (permAt (Rng.replay σ) (∑ a, sz a) 0 i k) ω))) fun i => by
          rw [permAt_replay, hT, hact]
      refine Eq.trans ?_ h.symm
      dsimp only
      rw [hT, Spec.energyTestStat_eq _ _ _ hsz]
      congr 1
      funext i
      rw [Spec.energyTestStat_eq _ _ _ hsz, relabel_split]
      rfl
  · have h := (key k).1 hk hkB
    simp only [← e1, card_perm_fin] at h
    exact h
  · have h := (key k).2
    simp only [← e1, ← e2, card_perm_fin] at h
    exact h

/-- A sum over all pairs in terms of the one over the ordered pairs. -/
theorem sum_symm_pairs (d : Fin c → Fin c → ℝ) (hd : ∀ a b, d a b = d b a) (h0 : ∀ a, d a a = 0) :
    ∑ a, ∑ b, d a b = 2 * ∑ a, ∑ b ∈ univ.filter (a < ·), d a b := by
  have h1 (a : Fin c) : ∑ b, d a b = ∑ b ∈ univ.filter (a < ·), d a b + ∑ b ∈ univ.filter (· < a), d a b := by
    simp only [sum_filter]
    rw [← sum_add_distrib]
    refine sum_congr rfl fun b _ => ?_
    rcases lt_trichotomy a b with h | rfl | h
    · rw [if_pos h, if_neg h.le.not_gt, add_zero]
    · rw [if_neg (lt_irrefl a), h0, add_zero]
    · rw [if_neg h.le.not_gt, if_pos h, zero_add]
  have h2 : ∑ a, ∑ b ∈ univ.filter (· < a), d a b = ∑ a, ∑ b ∈ univ.filter (a < ·), d a b := by
    simp only [sum_filter]
    rw [sum_comm]
    simp only [hd]
  rw [sum_congr rfl fun a _ => h1 a, sum_add_distrib, h2]
  ring

theorem energyTestVal_single (hα : α ≠ 0) (W : (a : Fin c) → Fin 1 → Fin p → ℝ) : Spec.energyTestVal .v α W
    = (∑ i, ∑ j, Spec.dist α (Spec.pooled W i) (Spec.pooled W j)) / 2 := by
  have hp (a : Fin c) (i : Fin 1) : Spec.pooled W (finSigmaFinEquiv ⟨a, i⟩) = W a i := by
    unfold Spec.pooled
    rw [Equiv.symm_apply_apply]
  have e : ∑ i, ∑ j, Spec.dist α (Spec.pooled W i) (Spec.pooled W j) = ∑ a, ∑ b, Spec.dist α (W a 0) (W b 0) := by
    rw [← finSigmaFinEquiv.sum_comp, Fintype.sum_sigma]
    refine sum_congr rfl fun a _ => ?_
    rw [Fin.sum_univ_one, ← finSigmaFinEquiv.sum_comp, Fintype.sum_sigma]
    refine sum_congr rfl fun b _ => ?_
    rw [Fin.sum_univ_one, hp, hp]
  rw [e, sum_symm_pairs _ (fun a b => Spec.dist_symm _ _ _) fun a => Spec.dist_self hα _]
  unfold Spec.energyTestVal Spec.energyVal Spec.energyV Spec.crossMean
  simp only [Fin.sum_univ_one, Spec.dist_self hα]
  rw [mul_div_cancel_left₀ _ two_ne_zero]
  refine sum_congr rfl fun a _ => sum_congr rfl fun b _ => ?_
  norm_num
  ring

/-- C102: the extreme case are samples of one observation: the p-value is always the smallest possible one. -/
theorem C102_energy_single_observations {S : Type} {rng : Rng S} {rs : RandomLike S} {A : Fin c → Arr}
    {W : (a : Fin c) → Fin 1 → Fin p → ℝ} (hc : EnergyTestCall A o W) (hs : o.stat.resolve env = .ok .v) (hj : nJobs ≠ some 0)
    (hα : o.exponent ≠ 0) (B : ℕ) :
    ∃ r s, (energyTest env rng (List.ofFn A) B o rs nJobs).out = .ok (r, s) ∧ r.pvalue = 1 / ((B : ℝ) + 1) := by
  refine ⟨_, _, congrArg PyM.out (energyTest_ok hc hs hj B), ?_⟩
  have h2 (π) : Spec.energyTestVal .v o.exponent (Spec.relabel W π) = Spec.energyTestVal .v o.exponent W := by
    rw [energyTestVal_single hα, energyTestVal_single hα, Spec.pooled_relabel]
    congr 1
    rw [← Equiv.sum_comp π fun i => ∑ j, Spec.dist o.exponent (Spec.pooled W i) (Spec.pooled W j)]
    refine sum_congr rfl fun i _ => ?_
    exact Equiv.sum_comp π fun j => Spec.dist o.exponent (Spec.pooled W (π i)) (Spec.pooled W j)
  have hsz (a : Fin c) : Spec.minSize .v ≤ 1 := le_rfl
  simp only [Spec.energyTestStat_eq _ _ _ hsz, h2]
  simp [Spec.permPvalue, Spec.countAbove, FP.lt]

end Energy

/-! ### Examples -/

/-- Five observations of two independent coins: an error of the first kind at level 1/20 is likelier than 1/20. -/
example : ∃ pv : (Fin 5 → (Fin 1 → ℝ) × (Fin 1 → ℝ)) → (Fin 19 → Equiv.Perm (Fin 5)) → ℝ,
    (∀ ω σ, ∃ r s, (distanceCovarianceTest stdEnv (Rng.replay σ) (npMat fun i => (ω i).1) (npMat fun i => (ω i).2) 19 1 (.gen 0)
      none).out = .ok (r, s) ∧ r.pvalue = pv ω σ) ∧
    1 / 20 < (∑ σ, (Measure.pi fun _ : Fin 5 => (coin 1).prod (coin 1)).real {ω | pv ω σ ≤ 1 / 20}) / 120 ^ 19 := by
  obtain ⟨T, pv, h1, h2, -⟩ := C102_dcov_level (env := stdEnv) (nJobs := none) (B := 19) zero_le_one (by simp)
    (exists_observations ((coin 1).prod (coin 1)) 5) (indepFun_prod measurable_id measurable_id)
  refine ⟨pv, fun ω σ => ?_, ?_⟩
  · obtain ⟨r, s, h, -, h'⟩ := h1 ω σ 1 _ _ (dcovTestCall_mat (by norm_num) _ _ zero_le_one)
    exact ⟨r, s, h, h' rfl⟩
  · have h := h2 1 one_pos (by norm_num)
    norm_num [Nat.factorial] at h ⊢
    exact h

example := C102_dcov_two_observations (env := stdEnv) (rng := shiftRng) (rs := .gen 0) (nJobs := none)
  (dcovTestCall_mat (by norm_num) ![![0], ![1]] ![![5, 1], ![2, 3]] zero_le_one) (by simp) 19

/-- Two samples of a coin with three and two observations. -/
example : ∃ pv : (Fin (∑ a, ![3, 2] a) → Fin 1 → ℝ) → (Fin 19 → Equiv.Perm (Fin (∑ a, ![3, 2] a))) → ℝ,
    (∀ ω σ, ∃ r s, (energyTest stdEnv (Rng.replay σ) (List.ofFn fun a => npMat (split ![3, 2] ω a)) 19 ⟨1, none, .enum .u⟩ (.gen 0)
      none).out = .ok (r, s) ∧ r.pvalue = pv ω σ) ∧
    1 / 20 < (∑ σ, (Measure.pi fun _ : Fin (∑ a, ![3, 2] a) => coin 1).real {ω | pv ω σ ≤ 1 / 20}) / 120 ^ 19 := by
  obtain ⟨T, pv, h1, h2, -⟩ := C102_energy_level (env := stdEnv) (nJobs := none) (B := 19) (sz := ![3, 2])
    (o := ⟨1, none, .enum .u⟩) zero_le_one (by simp) (st := .u) rfl (by decide) (exists_observations (coin 1) _)
  refine ⟨pv, fun ω σ => ?_, ?_⟩
  · obtain ⟨r, s, h, -, h'⟩ := h1 ω σ 1 _ (energyTestCall_mat (by norm_num) (by decide) _ zero_le_one _)
    exact ⟨r, s, h, h' rfl⟩
  · have h := h2 1 one_pos (by norm_num)
    norm_num [Nat.factorial, Fin.sum_univ_two] at h ⊢
    exact h

example := C102_energy_single_observations (env := stdEnv) (rng := shiftRng) (rs := .gen 0) (nJobs := none)
  (energyTestCall_mat (p := 1) (k := 3) (sz := fun _ => 1) (by norm_num) (by simp) (fun a _ => ![(a : ℝ)]) zero_le_one (.enum .v))
  rfl (by simp) one_ne_zero 19

end Dcor.Props

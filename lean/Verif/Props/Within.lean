/-
Property C128: the energy test compares the dispersion within the samples with the dispersion of all observations.
-/
import Verif.Props.Homogeneity
import Verif.Props.Resampling
import Verif.Proofs.EnergyOutlier
import Verif.Proofs.Exchange

namespace Dcor.Props

open Finset

variable {env : Env} {nJobs : Option ℤ} {p k : ℕ} {sz : Fin k → ℕ} {α : ℝ}

/-- Dispersion within the samples: the sum over the samples of the number of observations times the mean distance of two
observations. -/
noncomputable def withinDispersion (α : ℝ) (X : (a : Fin k) → Fin (sz a) → Fin p → ℝ) : ℝ :=
  ∑ a, (sz a : ℝ) * ((∑ i, ∑ j, Spec.dist α (X a i) (X a j)) / sz a ^ 2)

/-- Dispersion of all observations: their number times the mean distance of two of them. -/
noncomputable def totalDispersion (α : ℝ) (X : (a : Fin k) → Fin (sz a) → Fin p → ℝ) : ℝ :=
  (∑ a, (sz a : ℝ)) * ((∑ a, ∑ i, ∑ b, ∑ j, Spec.dist α (X a i) (X b j)) / (∑ a, (sz a : ℝ)) ^ 2)

theorem sum_pooled_apply (f : (Fin p → ℝ) → ℝ) (X : (a : Fin k) → Fin (sz a) → Fin p → ℝ) :
    ∑ i, f (Spec.pooled X i) = ∑ a, ∑ i, f (X a i) := by
  rw [← Equiv.sum_comp finSigmaFinEquiv, Fintype.sum_sigma]
  exact sum_congr rfl fun a _ => sum_congr rfl fun i _ => by rw [Spec.pooled_apply]

/-- Relabelling the observations does not change the dispersion of all observations. -/
theorem totalDispersion_relabel (α : ℝ) (X : (a : Fin k) → Fin (sz a) → Fin p → ℝ) (σ : Equiv.Perm (Fin (∑ a, sz a))) :
    totalDispersion α (Spec.relabel X σ) = totalDispersion α X := by
  have h (Z : (a : Fin k) → Fin (sz a) → Fin p → ℝ) : ∑ a, ∑ i, ∑ b, ∑ j, Spec.dist α (Z a i) (Z b j)
      = ∑ i, ∑ j, Spec.dist α (Spec.pooled Z i) (Spec.pooled Z j) := by
    rw [sum_pooled_apply fun u => ∑ j, Spec.dist α u (Spec.pooled Z j)]
    exact sum_congr rfl fun a _ => sum_congr rfl fun i _ => (sum_pooled_apply (fun u => Spec.dist α (Z a i) u) Z).symm
  unfold totalDispersion
  rw [h, h, Spec.pooled_relabel]
  congr 2
  rw [Equiv.sum_comp σ fun i => ∑ j, Spec.dist α (Spec.pooled X i) (Spec.pooled X (σ j))]
  exact sum_congr rfl fun i _ => Equiv.sum_comp σ fun j => Spec.dist α (Spec.pooled X i) (Spec.pooled X j)

theorem total_crossMean (hsz : ∀ a, 0 < sz a) (X : (a : Fin k) → Fin (sz a) → Fin p → ℝ) :
    ∑ a, ∑ i, ∑ b, ∑ j, Spec.dist α (X a i) (X b j) = ∑ a, ∑ b, (sz a : ℝ) * sz b * Spec.crossMean α (X a) (X b) := by
  refine sum_congr rfl fun a _ => ?_
  rw [sum_comm]
  refine sum_congr rfl fun b _ => ?_
  have ha : (sz a : ℝ) ≠ 0 := by exact_mod_cast (hsz a).ne'
  have hb : (sz b : ℝ) ≠ 0 := by exact_mod_cast (hsz b).ne'
  unfold Spec.crossMean
  field_simp

theorem within_crossMean (X : (a : Fin k) → Fin (sz a) → Fin p → ℝ) :
    withinDispersion α X = ∑ a, (sz a : ℝ) * Spec.crossMean α (X a) (X a) := by
  unfold withinDispersion Spec.crossMean
  exact sum_congr rfl fun a _ => by rw [sq]

/-- Two samples, or samples of the same size: the statistic is the difference of the dispersions. -/
theorem energyTestVal_dispersion (hk : 2 ≤ k) (hsz : ∀ a, 0 < sz a) (he : k = 2 ∨ ∀ a b, sz a = sz b)
    (X : (a : Fin k) → Fin (sz a) → Fin p → ℝ) :
    Spec.energyTestVal .v α X = k / 2 * (totalDispersion α X - withinDispersion α X) := by
  rw [within_crossMean]
  unfold totalDispersion
  rw [total_crossMean hsz]
  unfold Spec.energyTestVal Spec.energyVal Spec.energyV
  dsimp only
  rcases he with rfl | he
  · have h0 : (sz 0 : ℝ) ≠ 0 := by exact_mod_cast (hsz 0).ne'
    have h1 : (sz 1 : ℝ) ≠ 0 := by exact_mod_cast (hsz 1).ne'
    have h2 : (sz 0 : ℝ) + sz 1 ≠ 0 := by positivity
    have e0 : univ.filter ((0 : Fin 2) < ·) = {1} := by decide
    have e1 : univ.filter ((1 : Fin 2) < ·) = ∅ := by decide
    simp only [Fin.sum_univ_two, e0, e1, sum_singleton, sum_empty, add_zero]
    rw [Spec.crossMean_comm α (X 1) (X 0)]
    field_simp
    push_cast
    ring
  · obtain ⟨n, hn⟩ : ∃ n, ∀ a, sz a = n := ⟨sz ⟨0, by omega⟩, fun a => he a _⟩
    have n0 : (n : ℝ) ≠ 0 := by
      have := hsz ⟨0, by omega⟩
      rw [hn] at this
      exact_mod_cast this.ne'
    have k0 : (k : ℝ) ≠ 0 := by
      have : 0 < k := by omega
      exact_mod_cast this.ne'
    simp only [hn]
    have h2 := Spec.sum_pairs_symm (fun a b => (n : ℝ) * n / (n + n)
        * (2 * Spec.crossMean α (X a) (X b) - Spec.crossMean α (X a) (X a) - Spec.crossMean α (X b) (X b)))
      (fun a b => by rw [Spec.crossMean_comm α (X b) (X a)]; ring) (fun a => by ring)
    simp only [← mul_sum, sum_sub_distrib, sum_const, card_univ, Fintype.card_fin, nsmul_eq_mul] at h2 ⊢
    generalize (∑ a, ∑ b, Spec.crossMean α (X a) (X b)) = S at *
    generalize (∑ a, Spec.crossMean α (X a) (X a)) = D at *
    rw [← mul_right_inj' (two_ne_zero (α := ℝ)), h2]
    field_simp
    ring

private theorem within_nonneg (X : (a : Fin k) → Fin (sz a) → Fin p → ℝ) : 0 ≤ withinDispersion α X :=
  sum_nonneg fun a _ => mul_nonneg (Nat.cast_nonneg _)
    (div_nonneg (sum_nonneg fun i _ => sum_nonneg fun j _ => Spec.dist_nonneg α _ _) (by positivity))

private theorem within_zero (hα : 0 < α) (hsz : ∀ a, 0 < sz a) (X : (a : Fin k) → Fin (sz a) → Fin p → ℝ) :
    withinDispersion α X = 0 ↔ ∀ a i j, X a i = X a j := by
  unfold withinDispersion
  have t (a : Fin k) : (0 : ℝ) < sz a := by exact_mod_cast hsz a
  have d (a : Fin k) (i : Fin (sz a)) : 0 ≤ ∑ j, Spec.dist α (X a i) (X a j) := sum_nonneg fun j _ => Spec.dist_nonneg α _ _
  rw [sum_eq_zero_iff_of_nonneg fun a _ => mul_nonneg (t a).le (div_nonneg (sum_nonneg fun i _ => d a i) (by positivity))]
  refine ⟨fun h a i j => ?_, fun h a _ => ?_⟩
  · have h1 := (mul_eq_zero.1 (h a (mem_univ a))).resolve_left (t a).ne'
    have h2 := (div_eq_zero_iff.1 h1).resolve_right (pow_ne_zero 2 (t a).ne')
    have h3 := (sum_eq_zero_iff_of_nonneg fun i _ => d a i).1 h2 i (mem_univ i)
    have h4 := (sum_eq_zero_iff_of_nonneg fun j _ => Spec.dist_nonneg α (X a i) (X a j)).1 h3 j (mem_univ j)
    exact (Spec.dist_eq_zero hα _ _).1 h4
  · rw [sum_eq_zero fun i _ => sum_eq_zero fun j _ => (Spec.dist_eq_zero hα _ _).2 (h a i j)]
    simp

theorem permPvalue_replay_real {S B : ℕ} (σ : Fin B → Equiv.Perm (Fin S)) (T0 : ℝ) (T : Equiv.Perm (Fin S) → ℝ) :
    Spec.permPvalue (.fin T0) (fun k => .fin (T (permAt (Rng.replay σ) S 0 k))) B
      = (((univ.filter fun k => T0 < T (σ k)).card : ℝ) + 1) / (B + 1) := by
  classical
  have e : Spec.countAbove (.fin T0) (fun k => .fin (T (permAt (Rng.replay σ) S 0 k))) B
      = (univ.filter fun k => T0 < T (σ k)).card := by
    unfold Spec.countAbove
    rw [card_filter, card_filter, ← Fin.sum_univ_eq_sum_range
      (fun k => if FP.lt (.fin T0) (.fin (T (permAt (Rng.replay σ) S 0 k))) then 1 else 0)]
    refine sum_congr rfl fun k _ => ?_
    rw [permAt_replay]
    rfl
  rw [Spec.permPvalue, e]

variable {A : Fin k → Arr} {o : EnergyOpts} {X : (a : Fin k) → Fin (sz a) → Fin p → ℝ} {S : Type} {rng : Rng S}
  {rs : RandomLike S}

/-- C128: for two samples, and for samples of the same size, the statistic of `energy_test` is half the number of samples times the
dispersion of all observations less the dispersion within the samples. -/
theorem C128_statistic (hc : EnergyTestCall A o X) (hs : o.stat.resolve env = .ok .v) (hj : nJobs ≠ some 0)
    (he : k = 2 ∨ ∀ a b, sz a = sz b) (B : ℕ) :
    ∃ pv s, (energyTest env rng (List.ofFn A) B o rs nJobs).out
      = .ok (⟨pv, .fin (k / 2 * (totalDispersion o.exponent X - withinDispersion o.exponent X))⟩, s) := by
  rw [energyTest_ok hc hs hj B, Spec.energyTestStat_eq .v _ _ fun a => hc.pos a, energyTestVal_dispersion hc.two hc.pos he]
  exact ⟨_, _, rfl⟩

/-- C128: the p-value of `energy_test` of two samples, or of samples of the same size, counts the relabellings with a smaller
dispersion within the samples. -/
theorem C128_pvalue (hc : EnergyTestCall A o X) (hs : o.stat.resolve env = .ok .v) (hj : nJobs ≠ some 0)
    (he : k = 2 ∨ ∀ a b, sz a = sz b) {B : ℕ} (σ : Fin B → Equiv.Perm (Fin (∑ a, sz a))) :
    ∃ T s, (energyTest env (Rng.replay σ) (List.ofFn A) B o (.gen 0) nJobs).out
      = .ok (⟨(((univ.filter fun i => withinDispersion o.exponent (Spec.relabel X (σ i)) < withinDispersion o.exponent X).card : ℝ)
        + 1) / (B + 1), .fin T⟩, s) := by
  have hv (Z : (a : Fin k) → Fin (sz a) → Fin p → ℝ) : Spec.energyTestStat .v o.exponent Z
      = .fin (Spec.energyTestVal .v o.exponent Z) := Spec.energyTestStat_eq .v _ _ fun a => hc.pos a
  rw [energyTest_ok hc hs hj B]
  simp only [hv, show randomStateInit (Rng.replay σ) (.gen 0) = 0 from rfl]
  rw [permPvalue_replay_real σ _ fun π => Spec.energyTestVal .v o.exponent (Spec.relabel X π)]
  have e (i : Fin B) : Spec.energyTestVal .v o.exponent X < Spec.energyTestVal .v o.exponent (Spec.relabel X (σ i))
      ↔ withinDispersion o.exponent (Spec.relabel X (σ i)) < withinDispersion o.exponent X := by
    have : (0 : ℝ) < k := by
      have := hc.two
      exact_mod_cast (by omega : 0 < k)
    rw [energyTestVal_dispersion hc.two hc.pos he, energyTestVal_dispersion hc.two hc.pos he, totalDispersion_relabel, mul_lt_mul_iff_right₀ (by positivity)]
    constructor <;> intro h <;> linarith
  simp only [e]
  exact ⟨_, _, rfl⟩

/-- C128: the statistic of `energy_test` of two samples, or of samples of the same size, is at most half the number of samples times
the dispersion of all observations, and this value is attained exactly if each sample is constant. -/
theorem C128_maximum (hc : EnergyTestCall A o X) (hs : o.stat.resolve env = .ok .v) (hj : nJobs ≠ some 0)
    (he : k = 2 ∨ ∀ a b, sz a = sz b) (hα : 0 < o.exponent) (B : ℕ) :
    ∃ pv T s, (energyTest env rng (List.ofFn A) B o rs nJobs).out = .ok (⟨pv, .fin T⟩, s) ∧
      T ≤ k / 2 * totalDispersion o.exponent X ∧ (T = k / 2 * totalDispersion o.exponent X ↔ ∀ a i j, X a i = X a j) := by
  obtain ⟨pv, s, e⟩ := C128_statistic (rng := rng) (rs := rs) hc hs hj he B
  refine ⟨pv, _, s, e, ?_, ?_⟩
  · have := within_nonneg (α := o.exponent) X
    have : (0 : ℝ) ≤ k := Nat.cast_nonneg k
    gcongr
    linarith
  · have : (0 : ℝ) < k := by
      have := hc.two
      exact_mod_cast (by omega : 0 < k)
    rw [← within_zero hα hc.pos, mul_right_inj' (by positivity)]
    constructor <;> intro h <;> linarith

/-- Three samples `[2]`, `[10]` and `[0, 1]`. -/
def unequal : (a : Fin 3) → Fin (![1, 1, 2] a) → Fin 1 → ℝ
  | 0, _ => ![2]
  | 1, _ => ![10]
  | 2, i => ![(Fin.val i : ℝ)]

/-- The permutation that exchanges `2` and `0`. -/
noncomputable def exchanged : Equiv.Perm (Fin (∑ a, ![1, 1, 2] a)) :=
  (finSigmaFinEquiv.symm.trans (Equiv.swap ⟨0, (0 : Fin 1)⟩ ⟨2, (0 : Fin 2)⟩)).trans finSigmaFinEquiv

private theorem relabel_conj (X : (a : Fin k) → Fin (sz a) → Fin p → ℝ) (τ : Equiv.Perm ((a : Fin k) × Fin (sz a))) (a : Fin k)
    (i : Fin (sz a)) : Spec.relabel X ((finSigmaFinEquiv.symm.trans τ).trans finSigmaFinEquiv) a i
      = (fun q : (a : Fin k) × Fin (sz a) => X q.1 q.2) (τ ⟨a, i⟩) := by
  show (fun q : (a : Fin k) × Fin (sz a) => X q.1 q.2)
    (finSigmaFinEquiv.symm (finSigmaFinEquiv (τ (finSigmaFinEquiv.symm (finSigmaFinEquiv ⟨a, i⟩))))) = _
  rw [Equiv.symm_apply_apply, Equiv.symm_apply_apply]

theorem relabel_exchanged {a b : Fin 3} {i : Fin (![1, 1, 2] a)} {j : Fin (![1, 1, 2] b)}
    (h : Equiv.swap (⟨0, (0 : Fin 1)⟩ : (a : Fin 3) × Fin (![1, 1, 2] a)) ⟨2, (0 : Fin 2)⟩ ⟨a, i⟩ = ⟨b, j⟩) :
    Spec.relabel unequal exchanged a i = unequal b j :=
  (relabel_conj unequal _ a i).trans (congrArg (fun q : (a : Fin 3) × Fin (![1, 1, 2] a) => unequal q.1 q.2) h)

theorem sum_unequal_first (f : Fin (![1, 1, 2] (0 : Fin 3)) → ℝ) : ∑ i, f i = f (0 : Fin 1) := Fin.sum_univ_one f
theorem sum_unequal_second (f : Fin (![1, 1, 2] (1 : Fin 3)) → ℝ) : ∑ i, f i = f (0 : Fin 1) := Fin.sum_univ_one f
theorem sum_unequal_third (f : Fin (![1, 1, 2] (2 : Fin 3)) → ℝ) : ∑ i, f i = f (0 : Fin 2) + f (1 : Fin 2) := Fin.sum_univ_two f

theorem dist_points (a b : ℝ) : Spec.dist 1 ![a] ![b] = |a - b| := by
  rw [← Spec.dist_one_scalar]
  congr 1 <;> ext i <;> fin_cases i <;> rfl

private theorem within_unequal (X : (a : Fin 3) → Fin (![1, 1, 2] a) → Fin 1 → ℝ) {a b c d : ℝ} (h0 : X 0 (0 : Fin 1) = ![a])
    (h1 : X 1 (0 : Fin 1) = ![b]) (h2 : X 2 (0 : Fin 2) = ![c]) (h3 : X 2 (1 : Fin 2) = ![d]) :
    withinDispersion 1 X = |c - d| := by
  unfold withinDispersion
  simp only [Fin.sum_univ_three, sum_unequal_first, sum_unequal_second, sum_unequal_third, h0, h1, h2, h3]
  simp only [dist_points, abs_sub_comm d c]
  simp
  ring

private theorem val_unequal (X : (a : Fin 3) → Fin (![1, 1, 2] a) → Fin 1 → ℝ) {a b c d : ℝ} (h0 : X 0 (0 : Fin 1) = ![a])
    (h1 : X 1 (0 : Fin 1) = ![b]) (h2 : X 2 (0 : Fin 2) = ![c]) (h3 : X 2 (1 : Fin 2) = ![d]) :
    Spec.energyTestVal .v 1 X = |a - b| + 2 / 3 * (|a - c| + |a - d| + |b - c| + |b - d| - |c - d|) := by
  have e0 : univ.filter ((0 : Fin 3) < ·) = {1, 2} := by decide
  have e1 : univ.filter ((1 : Fin 3) < ·) = {2} := by decide
  have e2 : univ.filter ((2 : Fin 3) < ·) = ∅ := by decide
  unfold Spec.energyTestVal Spec.energyVal
  dsimp only
  rw [Fin.sum_univ_three, e0, e1, e2, sum_pair (by decide), sum_singleton, sum_empty]
  unfold Spec.energyV Spec.crossMean
  simp only [sum_unequal_first, sum_unequal_second, sum_unequal_third, h0, h1, h2, h3, dist_points]
  simp [abs_sub_comm d c]
  ring

theorem unequal_values : unequal 0 (0 : Fin 1) = ![2] ∧ unequal 1 (0 : Fin 1) = ![10] ∧ unequal 2 (0 : Fin 2) = ![0] ∧
    unequal 2 (1 : Fin 2) = ![1] := ⟨rfl, rfl, by simp [unequal], by simp [unequal]⟩

theorem relabel_unequal_values : Spec.relabel unequal exchanged 0 (0 : Fin 1) = ![0] ∧
    Spec.relabel unequal exchanged 1 (0 : Fin 1) = ![10] ∧ Spec.relabel unequal exchanged 2 (0 : Fin 2) = ![2] ∧
    Spec.relabel unequal exchanged 2 (1 : Fin 2) = ![1] :=
  have ⟨u0, u1, u2, u3⟩ := unequal_values
  ⟨(relabel_exchanged (Equiv.swap_apply_left _ _)).trans u2,
    (relabel_exchanged (Equiv.swap_apply_of_ne_of_ne (by decide) (by decide))).trans u1,
    (relabel_exchanged (Equiv.swap_apply_right _ _)).trans u0,
    (relabel_exchanged (Equiv.swap_apply_of_ne_of_ne (by decide) (by decide))).trans u3⟩

/-- C128: for more than two samples of different sizes this is no longer true. The samples `[2]`, `[10]` and `[0, 1]` and the
relabelled samples `[0]`, `[10]` and `[2, 1]` have the same dispersion within the samples, but `energy_test` counts the
relabelled samples as more extreme. -/
theorem C128_unequal_sizes :
    withinDispersion 1 (Spec.relabel unequal exchanged) = withinDispersion 1 unequal ∧
    ∃ T s, (energyTest stdEnv (Rng.replay fun _ : Fin 1 => exchanged) (List.ofFn fun a => npMat (unequal a)) 1 ⟨1, none, .enum .v⟩
      (.gen 0) none).out = .ok (⟨1, .fin T⟩, s) := by
  have ⟨u0, u1, u2, u3⟩ := unequal_values
  have ⟨r0, r1, r2, r3⟩ := relabel_unequal_values
  constructor
  · rw [within_unequal _ u0 u1 u2 u3, within_unequal _ r0 r1 r2 r3]
    norm_num
  · have hsz : ∀ a : Fin 3, 0 < ![1, 1, 2] a := by decide
    have hv (Z : (a : Fin 3) → Fin (![1, 1, 2] a) → Fin 1 → ℝ) : Spec.energyTestStat .v 1 Z
        = .fin (Spec.energyTestVal .v 1 Z) := Spec.energyTestStat_eq .v _ _ fun a => hsz a
    have h := energyTest_ok (env := stdEnv) (rng := Rng.replay fun _ : Fin 1 => exchanged) (rs := .gen 0) (nJobs := none)
      (energyTestCall_mat (by norm_num) hsz unequal zero_le_one (.enum .v)) (s := .v) rfl (by simp) 1
    rw [Nat.cast_one] at h
    rw [h]
    dsimp only
    simp only [hv, show randomStateInit (Rng.replay fun _ : Fin 1 => exchanged) (.gen 0) = 0 from rfl]
    rw [permPvalue_replay_real (fun _ : Fin 1 => exchanged) _ fun π => Spec.energyTestVal .v 1 (Spec.relabel unequal π)]
    have : Spec.energyTestVal .v 1 unequal < Spec.energyTestVal .v 1 (Spec.relabel unequal exchanged) := by
      rw [val_unequal _ u0 u1 u2 u3, val_unequal _ r0 r1 r2 r3]
      norm_num [abs_of_pos, abs_of_neg]
    simp only [this, filter_true, card_univ, Fintype.card_fin]
    norm_num

example := C128_statistic (env := stdEnv) (rng := shiftRng) (rs := .gen 7) (nJobs := none)
  (energyTestCall_two exX exX (by norm_num) (by norm_num) (α := 1) zero_le_one (.enum .v)) rfl (by simp) (.inl rfl) 99
example := C128_pvalue (env := stdEnv) (nJobs := some 2)
  (energyTestCall_mat (k := 3) (sz := fun _ => 2) (by norm_num) (by simp) (fun a i => ![(a : ℝ), (i : ℝ)]) zero_le_one (.enum .v))
  rfl (by simp) (.inr fun _ _ => rfl) fun i : Fin 99 => Equiv.refl _
example := C128_maximum (env := stdEnv) (rng := shiftRng) (rs := .gen 7) (nJobs := none)
  (energyTestCall_two exX exX (by norm_num) (by norm_num) (α := 1) zero_le_one (.enum .v)) rfl (by simp) (.inl rfl) one_pos 99

end Dcor.Props

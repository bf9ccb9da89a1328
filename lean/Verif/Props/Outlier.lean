/-
Property C119: the distance correlation and the distance covariance test of samples with one observation that is far away.
-/
import Verif.Proofs.Outlier
import Verif.Props.Invariance
import Verif.Proofs.Independence
import Verif.Proofs.Exchange
import Verif.Props.Resampling

namespace Dcor.Props

open Finset Filter Topology

variable {n p q N : ℕ} {α : ℝ} {env : Env} {nJobs : Option ℤ} {X : Fin n → Fin p → ℝ} {Y : Fin n → Fin q → ℝ} {i : Fin n}
  {u : Fin p → ℝ} {v : Fin q → ℝ}

private theorem dist_zero_pos (hα : 0 < α) {u : Fin p → ℝ} (hu : u ≠ 0) : 0 < Spec.dist α u 0 := by
  refine lt_of_le_of_ne (Spec.dist_nonneg _ _ _) fun e => hu ?_
  have h := (Spec.distMat_eq_zero hα ![u, 0]).1 (by
    funext k l
    fin_cases k <;> fin_cases l
    · exact Spec.dist_self hα.ne' _
    · exact e.symm
    · exact (Spec.dist_symm _ _ _).trans e.symm
    · exact Spec.dist_self hα.ne' _) 0 1
  exact h

private theorem star_ne_zero (hn : 2 ≤ n) (i : Fin n) : Spec.dcovSqr (Spec.star i) (Spec.star i) ≠ 0 := by
  have h2 : (2 : ℝ) ≤ n := by exact_mod_cast hn
  rw [Spec.dcovSqr_star_star, if_pos rfl]
  have h : (1 : ℝ) / n ≤ 1 / 2 := one_div_le_one_div_of_le (by norm_num) h2
  have : (0 : ℝ) < 1 - 1 / n := by linarith
  positivity

/-- The distances of the sample with the observation `i` moved by `t u`, divided by `t ^ α`. -/
private noncomputable def scaled (α : ℝ) (X : Fin n → Fin p → ℝ) (i : Fin n) (u : Fin p → ℝ) (t : ℝ) : Fin n → Fin n → ℝ :=
  Spec.distMat α fun k c => t⁻¹ * Spec.moved X i u t k c

private theorem scaled_tendsto (hα : 0 < α) (X : Fin n → Fin p → ℝ) (i : Fin n) (u : Fin p → ℝ) :
    Tendsto (scaled α X i u) atTop (𝓝 (Spec.dist α u 0 • Spec.star i)) := by
  rw [← Spec.distMat_spike hα.ne']
  exact ((Spec.continuous_distMat hα.le).tendsto _).comp (Spec.moved_tendsto X i u)

private theorem reorder_tendsto (hα : 0 < α) (X : Fin n → Fin p → ℝ) (i : Fin n) (u : Fin p → ℝ) (π : Equiv.Perm (Fin n)) :
    Tendsto (fun t k l => scaled α X i u t (π k) (π l)) atTop (𝓝 (Spec.dist α u 0 • Spec.star (π.symm i))) := by
  have h := scaled_tendsto hα X i u
  have e : Spec.dist α u 0 • Spec.star (π.symm i) = fun k l => (Spec.dist α u 0 • Spec.star i) (π k) (π l) := by
    funext k l
    simp only [Pi.smul_apply, Spec.star, Equiv.eq_symm_apply]
  rw [e]
  rw [tendsto_pi_nhds] at h ⊢
  intro k
  have h' := h (π k)
  rw [tendsto_pi_nhds] at h' ⊢
  exact fun l => h' (π l)

/-- C119: two outliers. If in both samples the same observation moves away, in any directions and at any speeds, then the distance
correlation tends to 1, whatever the samples are. -/
theorem C119_two_outliers (hα : 0 < α) (hn : 2 ≤ n) (hu : u ≠ 0) (hv : v ≠ 0) {ε : ℝ} (hε : 0 < ε) :
    ∀ᶠ ts in atTop ×ˢ atTop, ∀ x y o, o.exponent = α →
      Supported env x y o (Spec.moved X i u ts.1) (Spec.moved Y i v ts.2) →
      ∃ r, (distanceCorrelation env x y o).out = .ok (.fin r) ∧ 1 - ε < r ∧ r ≤ 1 := by
  have hx := dist_zero_pos hα hu
  have hy := dist_zero_pos hα hv
  have h1 : Tendsto (fun ts : ℝ × ℝ => scaled α X i u ts.1) (atTop ×ˢ atTop) _ := (scaled_tendsto hα X i u).comp tendsto_fst
  have h2 : Tendsto (fun ts : ℝ × ℝ => scaled α Y i v ts.2) (atTop ×ˢ atTop) _ := (scaled_tendsto hα Y i v).comp tendsto_snd
  have hs := star_ne_zero hn i
  have h := Spec.dcorSqr_tendsto h1 h2
    (by rw [Spec.dcovSqr_smul_left, Spec.dcovSqr_smul_right]; exact mul_ne_zero hx.ne' (mul_ne_zero hx.ne' hs))
    (by rw [Spec.dcovSqr_smul_left, Spec.dcovSqr_smul_right]; exact mul_ne_zero hy.ne' (mul_ne_zero hy.ne' hs))
  rw [Spec.dcorSqr_smul_left hx, Spec.dcorSqr_comm, Spec.dcorSqr_smul_left hy,
    show Spec.dcorSqr (Spec.star i) (Spec.star i) = 1 from
      Spec.ratio_self (lt_of_le_of_ne (Spec.dcovSqr_self_nonneg _) hs.symm)] at h
  have h' := h.sqrt
  rw [Real.sqrt_one] at h'
  filter_upwards [h'.eventually (lt_mem_nhds (show 1 - ε < 1 by linarith)),
    (tendsto_fst (f := atTop) (g := atTop)).eventually (eventually_gt_atTop (0 : ℝ)),
    (tendsto_snd (f := atTop) (g := atTop)).eventually (eventually_gt_atTop (0 : ℝ))] with ts hr ht hs x y o ho hc
  subst ho
  refine ⟨_, distanceCorrelation_ok hc (by omega), ?_, ?_⟩
  · rw [Spec.distMat_moved ht, Spec.distMat_moved hs, Spec.dcorSqr_smul_left (Real.rpow_pos_of_pos ht _), Spec.dcorSqr_comm,
      Spec.dcorSqr_smul_left (Real.rpow_pos_of_pos hs _), Spec.dcorSqr_comm]
    exact hr
  · exact Real.sqrt_le_one.2 (abs_le.1 (Spec.abs_dcorSqr_le_one _ _)).2

/-- C119: one outlier. If one observation of the first sample moves away and the second sample stays as it is, then the distance
correlation tends to a number that depends only on the second sample and on the place of the outlier, not on the other
observations of the first sample. -/
theorem C119_one_outlier (hα : 0 < α) (hn : 2 ≤ n) (hu : u ≠ 0) (hY : ∃ k l, Y k ≠ Y l) {ε : ℝ} (hε : 0 < ε) :
    ∀ᶠ t in atTop, ∀ x y o, o.exponent = α → Supported env x y o (Spec.moved X i u t) Y →
      ∃ r, (distanceCorrelation env x y o).out = .ok (.fin r) ∧
        |r - Real.sqrt ((2 * (∑ k, Spec.dist α (Y i) (Y k)) / n - (∑ k, ∑ l, Spec.dist α (Y k) (Y l)) / n ^ 2)
          / ((n - 1) * Real.sqrt (Spec.dcovSqr (Spec.distMat α Y) (Spec.distMat α Y))))| < ε := by
  have h2 : (2 : ℝ) ≤ n := by exact_mod_cast hn
  have hx := dist_zero_pos hα hu
  have hs := star_ne_zero hn i
  have hV : Spec.dcovSqr (Spec.distMat α Y) (Spec.distMat α Y) ≠ 0 := by
    intro e
    obtain ⟨k, l, hkl⟩ := hY
    exact hkl ((Spec.dvar_eq_zero (by omega) hα Y).1 e k l)
  have hVp := lt_of_le_of_ne (Spec.dcovSqr_self_nonneg _) hV.symm
  have h := (Spec.dcorSqr_tendsto (scaled_tendsto hα X i u) (tendsto_const_nhds (x := Spec.distMat α Y))
    (by rw [Spec.dcovSqr_smul_left, Spec.dcovSqr_smul_right]; exact mul_ne_zero hx.ne' (mul_ne_zero hx.ne' hs)) hV).sqrt
  have e : Spec.dcorSqr (Spec.dist α u 0 • Spec.star i) (Spec.distMat α Y)
      = (2 * (∑ k, Spec.dist α (Y i) (Y k)) / n - (∑ k, ∑ l, Spec.dist α (Y k) (Y l)) / n ^ 2)
          / ((n - 1) * Real.sqrt (Spec.dcovSqr (Spec.distMat α Y) (Spec.distMat α Y))) := by
    have hS : Spec.dcovSqr (Spec.star i) (Spec.star i) = (2 * (n - 1) / n ^ 2) ^ 2 := by
      rw [Spec.dcovSqr_star_star, if_pos rfl]
      field_simp
      norm_num [mul_comm]
    rw [Spec.dcorSqr_smul_left hx, Spec.dcorSqr, Spec.ratio, if_neg (mul_ne_zero hs hV), Spec.dcovSqr_star,
      Spec.centre_diag_eq (fun k l => Spec.distMat_symm α Y k l) (fun k => Spec.dist_self hα.ne' (Y k)), hS,
      abs_of_nonneg (by positivity), Real.sqrt_mul (sq_nonneg _), Real.sqrt_sq
        (div_nonneg (by linarith) (sq_nonneg _))]
    have := Real.sqrt_pos.2 hVp
    have h1 : (n : ℝ) - 1 ≠ 0 := by intro e; linarith
    simp only [Spec.distMat]
    field_simp
    ring
  rw [e] at h
  filter_upwards [h.eventually (Metric.ball_mem_nhds _ hε), eventually_gt_atTop 0] with t hr ht x y o ho hc
  subst ho
  refine ⟨_, distanceCorrelation_ok hc (by omega), ?_⟩
  rw [Spec.distMat_moved ht, Spec.dcorSqr_smul_left (Real.rpow_pos_of_pos ht _)]
  exact hr

private theorem pvalue_replay (σ : Fin N → Equiv.Perm (Fin n)) (T0 : ℝ) (T : Equiv.Perm (Fin n) → ℝ) :
    Spec.permPvalue (.fin T0) (fun k => .fin (T (permAt (Rng.replay σ) n 0 k))) N
      = (((univ.filter fun k => T0 < T (σ k)).card : ℝ) + 1) / (N + 1) := by
  classical
  have e : Spec.countAbove (.fin T0) (fun k => .fin (T (permAt (Rng.replay σ) n 0 k))) N
      = (univ.filter fun k => T0 < T (σ k)).card := by
    unfold Spec.countAbove
    rw [card_filter, card_filter, ← Fin.sum_univ_eq_sum_range
      (fun k => if FP.lt (.fin T0) (.fin (T (permAt (Rng.replay σ) n 0 k))) then 1 else 0)]
    refine sum_congr rfl fun k _ => ?_
    rw [permAt_replay]
    rfl
  rw [Spec.permPvalue, e]

/-- The statistic of the permuted sample. -/
private theorem stat_moved {t : ℝ} (ht : 0 < t) (π : Equiv.Perm (Fin n)) (Y : Fin n → Fin q → ℝ) :
    Spec.dcovStat α (fun k => Spec.moved X i u t (π k)) Y
      = n * t ^ α * Spec.dcovSqr (fun k l => scaled α X i u t (π k) (π l)) (Spec.distMat α Y) := by
  have e : Spec.distMat α (fun k => Spec.moved X i u t (π k)) = t ^ α • fun k l => scaled α X i u t (π k) (π l) := by
    have h := Spec.distMat_moved (α := α) ht X i u
    funext k l
    exact congrFun (congrFun h (π k)) (π l)
  rw [Spec.dcovStat, e, Spec.dcovSqr_smul_left, mul_assoc]

private theorem moved_le {f : Equiv.Perm (Fin n) → ℝ} (h : ∀ π, π i ≠ i → f π < f 1) (σ : Fin N → Equiv.Perm (Fin n)) :
    (((univ.filter fun k => f 1 < f (σ k)).card : ℝ) + 1) / (N + 1)
      ≤ (((univ.filter fun k => σ k i = i).card : ℝ) + 1) / (N + 1) := by
  have hc : (univ.filter fun k => f 1 < f (σ k)).card ≤ (univ.filter fun k => σ k i = i).card := by
    refine card_le_card fun k hk => ?_
    rw [mem_filter] at hk ⊢
    refine ⟨mem_univ _, ?_⟩
    by_contra hne
    exact lt_asymm hk.2 (h _ hne)
  have hc' : ((univ.filter fun k => f 1 < f (σ k)).card : ℝ) ≤ (univ.filter fun k => σ k i = i).card := by exact_mod_cast hc
  gcongr

private theorem le_moved {f : Equiv.Perm (Fin n) → ℝ} (h : ∀ π, π i ≠ i → f 1 < f π) (σ : Fin N → Equiv.Perm (Fin n)) :
    (((univ.filter fun k => σ k i ≠ i).card : ℝ) + 1) / (N + 1)
      ≤ (((univ.filter fun k => f 1 < f (σ k)).card : ℝ) + 1) / (N + 1) := by
  have hc : (univ.filter fun k => σ k i ≠ i).card ≤ (univ.filter fun k => f 1 < f (σ k)).card := by
    refine card_le_card fun k hk => ?_
    rw [mem_filter] at hk ⊢
    exact ⟨mem_univ _, h _ hk.2⟩
  have hc' : ((univ.filter fun k => σ k i ≠ i).card : ℝ) ≤ (univ.filter fun k => f 1 < f (σ k)).card := by exact_mod_cast hc
  gcongr

private theorem symm_ne {π : Equiv.Perm (Fin n)} (h : π i ≠ i) : π.symm i ≠ i := fun e => h (by
  rw [← e, Equiv.apply_symm_apply, e])

/-- C119: two outliers and the permutation test. If in both samples of at least three observations the same observation moves
away, then from some distance on the p-value of `distance_covariance_test` is at most `(1 + f) / (N + 1)`, where `f` is the number
of drawn permutations that leave the outlier in its place, whatever the other observations are. -/
theorem C119_two_outliers_test (hα : 0 < α) (hn : 3 ≤ n) (hu : u ≠ 0) (hv : v ≠ 0) (hj : nJobs ≠ some 0) :
    ∀ᶠ ts in atTop ×ˢ atTop, ∀ x y, DcovTestCall x y α (Spec.moved X i u ts.1) (Spec.moved Y i v ts.2) →
      ∀ σ : Fin N → Equiv.Perm (Fin n), ∃ pv T s,
        (distanceCovarianceTest env (Rng.replay σ) x y N α (.gen 0) nJobs).out = .ok (⟨pv, .fin T⟩, s) ∧
        pv ≤ (((univ.filter fun k => σ k i = i).card : ℝ) + 1) / (N + 1) := by
  have h3 : (3 : ℝ) ≤ n := by exact_mod_cast hn
  have hx := dist_zero_pos hα hu
  have hy := dist_zero_pos hα hv
  have h2 : Tendsto (fun ts : ℝ × ℝ => scaled α Y i v ts.2) (atTop ×ˢ atTop) _ := (scaled_tendsto hα Y i v).comp tendsto_snd
  have h1 : ∀ π : Equiv.Perm (Fin n), Tendsto (fun (ts : ℝ × ℝ) k l => scaled α X i u ts.1 (π k) (π l)) (atTop ×ˢ atTop) _ :=
    fun π => (reorder_tendsto hα X i u π).comp tendsto_fst
  have hlim := fun π => Spec.dcovSqr_tendsto (h1 π) h2
  have hev : ∀ᶠ ts : ℝ × ℝ in atTop ×ˢ atTop, ∀ π : Equiv.Perm (Fin n), π i ≠ i →
      Spec.dcovSqr (fun k l => scaled α X i u ts.1 (π k) (π l)) (scaled α Y i v ts.2)
        < Spec.dcovSqr (fun k l => scaled α X i u ts.1 ((1 : Equiv.Perm (Fin n)) k) ((1 : Equiv.Perm (Fin n)) l))
          (scaled α Y i v ts.2) := by
    refine eventually_all.2 fun π => ?_
    by_cases hπ : π i = i
    · exact Eventually.of_forall fun _ h => absurd hπ h
    · refine ((hlim π).eventually_lt (hlim 1) ?_).mono fun _ h _ => h
      rw [Spec.dcovSqr_smul_left, Spec.dcovSqr_smul_right, Spec.dcovSqr_smul_left, Spec.dcovSqr_smul_right,
        Spec.dcovSqr_star_star, Spec.dcovSqr_star_star, if_neg (symm_ne hπ),
        if_pos (show (1 : Equiv.Perm (Fin n)).symm i = i from rfl)]
      have hn0 : (0 : ℝ) < n := by linarith
      have hlt : (0 - 1 / (n : ℝ)) ^ 2 < (1 - 1 / (n : ℝ)) ^ 2 := by
        have : (1 : ℝ) / n ≤ 1 / 3 := one_div_le_one_div_of_le (by norm_num) h3
        nlinarith
      gcongr
  filter_upwards [hev, (tendsto_fst (f := atTop) (g := atTop)).eventually (eventually_gt_atTop (0 : ℝ)),
    (tendsto_snd (f := atTop) (g := atTop)).eventually (eventually_gt_atTop (0 : ℝ))] with ts hlt ht hs x y hc σ
  have hn0 : (0 : ℝ) < n := by linarith
  refine ⟨_, _, _, congrArg PyM.out (distanceCovarianceTest_ok hc hj N), ?_⟩
  refine (pvalue_replay σ _ fun π => Spec.dcovStat α (fun k => Spec.moved X i u ts.1 (π k)) (Spec.moved Y i v ts.2)).trans_le
    (moved_le (f := fun π => Spec.dcovStat α (fun k => Spec.moved X i u ts.1 (π k)) (Spec.moved Y i v ts.2)) (fun π hπ => ?_) σ)
  have hs' := Real.rpow_pos_of_pos hs α
  have ht' := Real.rpow_pos_of_pos ht α
  have key := hlt π hπ
  show Spec.dcovStat α (fun k => Spec.moved X i u ts.1 (π k)) (Spec.moved Y i v ts.2)
    < Spec.dcovStat α (fun k => Spec.moved X i u ts.1 ((1 : Equiv.Perm (Fin n)) k)) (Spec.moved Y i v ts.2)
  rw [stat_moved ht, stat_moved ht, Spec.distMat_moved hs, Spec.dcovSqr_smul_right, Spec.dcovSqr_smul_right]
  exact mul_lt_mul_of_pos_left (mul_lt_mul_of_pos_left key hs') (mul_pos hn0 ht')

/-- C119: one outlier and the permutation test. If one observation of the first sample moves away, then from some distance on the
test only looks at the observation of the second sample that belongs to it. If that one has the smallest sum of distances to the
others, then the p-value is at least `(1 + m) / (N + 1)`, where `m` is the number of drawn permutations that move the outlier; if
it has the largest one, then the p-value is at most `(1 + N - m) / (N + 1)`. Both hold for any dependence between the
other observations. -/
theorem C119_one_outlier_test (hα : 0 < α) (hu : u ≠ 0) (hj : nJobs ≠ some 0) :
    ∀ᶠ t in atTop, ∀ x y, DcovTestCall x y α (Spec.moved X i u t) Y →
      ∀ σ : Fin N → Equiv.Perm (Fin n), ∃ pv T s,
        (distanceCovarianceTest env (Rng.replay σ) x y N α (.gen 0) nJobs).out = .ok (⟨pv, .fin T⟩, s) ∧
        ((∀ j, j ≠ i → ∑ k, Spec.dist α (Y i) (Y k) < ∑ k, Spec.dist α (Y j) (Y k)) →
          (((univ.filter fun k => σ k i ≠ i).card : ℝ) + 1) / (N + 1) ≤ pv) ∧
        ((∀ j, j ≠ i → ∑ k, Spec.dist α (Y j) (Y k) < ∑ k, Spec.dist α (Y i) (Y k)) →
          pv ≤ (((univ.filter fun k => σ k i = i).card : ℝ) + 1) / (N + 1)) := by
  have hn0 : (0 : ℝ) < n := by have := i.pos; exact_mod_cast this
  have hx := dist_zero_pos hα hu
  have hlim := fun π => Spec.dcovSqr_tendsto (reorder_tendsto hα X i u π) (tendsto_const_nhds (x := Spec.distMat α Y))
  have hval : ∀ j, Spec.dcovSqr (Spec.dist α u 0 • Spec.star j) (Spec.distMat α Y)
      = Spec.dist α u 0 * (2 * (2 * (∑ k, Spec.dist α (Y j) (Y k)) / n
        - (∑ k, ∑ l, Spec.dist α (Y k) (Y l)) / n ^ 2) / n ^ 2) := by
    intro j
    rw [Spec.dcovSqr_smul_left, Spec.dcovSqr_star,
      Spec.centre_diag_eq (fun k l => Spec.distMat_symm α Y k l) (fun k => Spec.dist_self hα.ne' (Y k))]
    simp only [Spec.distMat]
    ring
  have hmono : ∀ j j', ∑ k, Spec.dist α (Y j) (Y k) < ∑ k, Spec.dist α (Y j') (Y k) →
      Spec.dcovSqr (Spec.dist α u 0 • Spec.star j) (Spec.distMat α Y)
        < Spec.dcovSqr (Spec.dist α u 0 • Spec.star j') (Spec.distMat α Y) := by
    intro j j' h
    rw [hval, hval]
    gcongr
  have hev : ∀ᶠ t in atTop, ∀ π π' : Equiv.Perm (Fin n),
      ∑ k, Spec.dist α (Y (π.symm i)) (Y k) < ∑ k, Spec.dist α (Y (π'.symm i)) (Y k) →
      Spec.dcovSqr (fun k l => scaled α X i u t (π k) (π l)) (Spec.distMat α Y)
        < Spec.dcovSqr (fun k l => scaled α X i u t (π' k) (π' l)) (Spec.distMat α Y) := by
    refine eventually_all.2 fun π => eventually_all.2 fun π' => ?_
    by_cases h : ∑ k, Spec.dist α (Y (π.symm i)) (Y k) < ∑ k, Spec.dist α (Y (π'.symm i)) (Y k)
    · exact ((hlim π).eventually_lt (hlim π') (hmono _ _ h)).mono fun _ h _ => h
    · exact Eventually.of_forall fun _ h' => absurd h' h
  filter_upwards [hev, eventually_gt_atTop 0] with t hlt ht x y hc σ
  have ht' := Real.rpow_pos_of_pos ht α
  have hstat : ∀ π π' : Equiv.Perm (Fin n),
      ∑ k, Spec.dist α (Y (π.symm i)) (Y k) < ∑ k, Spec.dist α (Y (π'.symm i)) (Y k) →
      Spec.dcovStat α (fun k => Spec.moved X i u t (π k)) Y < Spec.dcovStat α (fun k => Spec.moved X i u t (π' k)) Y := by
    intro π π' h
    rw [stat_moved ht, stat_moved ht]
    exact mul_lt_mul_of_pos_left (hlt π π' h) (mul_pos hn0 ht')
  have hp := pvalue_replay σ (Spec.dcovStat α (Spec.moved X i u t) Y)
    fun π => Spec.dcovStat α (fun k => Spec.moved X i u t (π k)) Y
  refine ⟨_, _, _, congrArg PyM.out (distanceCovarianceTest_ok hc hj N), fun h => ?_, fun h => ?_⟩
  · exact (le_moved (f := fun π => Spec.dcovStat α (fun k => Spec.moved X i u t (π k)) Y)
      (fun π hπ => hstat 1 π (h _ (symm_ne hπ))) σ).trans_eq hp.symm
  · exact hp.trans_le (moved_le (f := fun π => Spec.dcovStat α (fun k => Spec.moved X i u t (π k)) Y)
      (fun π hπ => hstat π 1 (h _ (symm_ne hπ))) σ)

/-- Five pairs of numbers without any dependence, one of which is moved far away in both samples. -/
example : ∀ᶠ ts : ℝ × ℝ in atTop ×ˢ atTop, ∃ r,
    (distanceCorrelation stdEnv (npMat (Spec.moved (fun _ : Fin 5 => ![(0 : ℝ)]) 2 ![1] ts.1))
      (npMat (Spec.moved (fun _ : Fin 5 => ![(0 : ℝ)]) 2 ![-1] ts.2)) ⟨1, .enum .naive, .auto⟩).out = .ok (.fin r) ∧
      1 - 1 / 100 < r ∧ r ≤ 1 := by
  refine (C119_two_outliers (env := stdEnv) (α := 1) one_pos (by norm_num) (fun e => ?_) (fun e => ?_)
    (by norm_num : (0 : ℝ) < 1 / 100)).mono fun ts h => h _ _ _ rfl (supported_mat _ _ 1 zero_le_one)
  · have := congrFun e 0
    norm_num at this
  · have := congrFun e 0
    norm_num at this

/-- The second sample equals the first one, but one observation of the first sample, which belongs to the most central one of the
second sample, is moved away: with permutations that move it the p-value is 1. -/
example : ∀ᶠ t : ℝ in atTop, ∃ pv T s,
    (distanceCovarianceTest stdEnv (Rng.replay fun _ : Fin 9 => Equiv.swap (2 : Fin 5) 0)
      (npMat (Spec.moved ![![0], ![1], ![2], ![3], ![(4 : ℝ)]] 2 ![1] t)) (npMat ![![0], ![1], ![2], ![3], ![(4 : ℝ)]]) 9 1
      (.gen 0) none).out = .ok (⟨pv, .fin T⟩, s) ∧ 1 ≤ pv := by
  refine (C119_one_outlier_test (env := stdEnv) (nJobs := none) (α := 1) (N := 9) (i := 2) (u := ![1])
    (X := ![![0], ![1], ![2], ![3], ![(4 : ℝ)]]) (Y := ![![0], ![1], ![2], ![3], ![(4 : ℝ)]]) one_pos (fun e => ?_)
    (by simp)).mono fun t h => ?_
  · have := congrFun e 0
    norm_num at this
  · obtain ⟨pv, T, s, h1, h2, -⟩ := h _ _ (dcovTestCall_mat (by norm_num) _ _ zero_le_one) fun _ => Equiv.swap (2 : Fin 5) 0
    refine ⟨pv, T, s, h1, ?_⟩
    have h3 := h2 fun j hj => ?_
    · rw [filter_true_of_mem fun k _ => by decide] at h3
      norm_num at h3
      exact h3
    · have e : ∀ a b : ℝ, Spec.dist 1 ![a] ![b] = |a - b| := fun a b => by
        rw [Spec.dist, Fin.sum_univ_one, Real.rpow_one, Real.sqrt_sq_eq_abs]; rfl
      simp only [Fin.sum_univ_five]
      fin_cases j
      · simp [e]; norm_num
      · simp [e]; norm_num
      · exact absurd rfl hj
      · simp [e]; norm_num
      · simp [e]; norm_num

end Dcor.Props

/-
Property C127: how the statistics depend on the exponent. They are continuous in it, and for small exponents they only see which
observations are equal.
-/
import Verif.Proofs.Outlier
import Verif.Props.Consistency

namespace Dcor.Props

open Finset Filter Topology

variable {env : Env} {n m p q : ℕ} {α : ℝ} {ι : Type*} {l : Filter ι}

/-! ### Distances -/

private theorem dist_tendsto {e : ι → ℝ} (hα : 0 < α) (he : Tendsto e l (𝓝 α)) (u v : Fin p → ℝ) :
    Tendsto (fun s => Spec.dist (e s) u v) l (𝓝 (Spec.dist α u v)) := by
  unfold Spec.dist
  obtain ⟨r, hr⟩ : ∃ r, r = √(∑ c, (u c - v c) ^ 2) := ⟨_, rfl⟩
  rw [← hr]
  rcases eq_or_ne r 0 with h | h
  · rw [h, Real.zero_rpow hα.ne']
    refine tendsto_const_nhds.congr' ?_
    filter_upwards [he.eventually (lt_mem_nhds hα)] with s hs
    rw [Real.zero_rpow hs.ne']
  · exact (Real.continuousAt_const_rpow h).tendsto.comp he

private theorem distMat_tendsto {e : ι → ℝ} (hα : 0 < α) (he : Tendsto e l (𝓝 α)) (X : Fin n → Fin p → ℝ) :
    Tendsto (fun s => Spec.distMat (e s) X) l (𝓝 (Spec.distMat α X)) :=
  tendsto_pi_nhds.2 fun i => tendsto_pi_nhds.2 fun j => dist_tendsto hα he (X i) (X j)

open Classical in
private theorem dist_tendsto_zero {e : ι → ℝ} (he : Tendsto e l (𝓝[>] 0)) (u v : Fin p → ℝ) :
    Tendsto (fun s => Spec.dist (e s) u v) l (𝓝 (if u = v then 0 else 1)) := by
  split_ifs with h
  · subst h
    refine tendsto_const_nhds.congr' ?_
    filter_upwards [he.eventually self_mem_nhdsWithin] with s hs
    have : e s ≠ 0 := ne_of_gt hs
    simp [Spec.dist, Real.zero_rpow this]
  · have hr : √(∑ c, (u c - v c) ^ 2) ≠ 0 := by
      intro h0
      rw [Real.sqrt_eq_zero (sum_nonneg fun _ _ => sq_nonneg _)] at h0
      refine h (funext fun c => ?_)
      have := (sum_eq_zero_iff_of_nonneg fun _ _ => sq_nonneg _).1 h0 c (mem_univ c)
      exact sub_eq_zero.1 (pow_eq_zero_iff two_ne_zero |>.1 this)
    have := (Real.continuousAt_const_rpow hr (b := 0)).tendsto.comp (he.mono_right nhdsWithin_le_nhds)
    rwa [Real.rpow_zero] at this

open Classical in
private theorem distMat_tendsto_zero {e : ι → ℝ} (he : Tendsto e l (𝓝[>] 0)) (X : Fin n → Fin p → ℝ) :
    Tendsto (fun s => Spec.distMat (e s) X) l (𝓝 fun i j => if X i = X j then 0 else 1) :=
  tendsto_pi_nhds.2 fun i => tendsto_pi_nhds.2 fun j => dist_tendsto_zero he (X i) (X j)

/-! ### Samples of which only the ties are seen -/

open Classical in
/-- Part of the observations that have the value `u`. -/
noncomputable def valueFreq {S : Type} (X : Fin n → S) (u : S) : ℝ := ((univ.filter fun i => X i = u).card : ℝ) / n

open Classical in
/-- Part of the observations that have the value `u` in the first sample and `v` in the second. -/
noncomputable def jointFreq {S T : Type} (X : Fin n → S) (Y : Fin n → T) (u : S) (v : T) : ℝ :=
  ((univ.filter fun i => X i = u ∧ Y i = v).card : ℝ) / n

open Classical in
private theorem card_joint {S T : Type} (X : Fin n → S) (Y : Fin n → T) (u : S) (v : T) :
    ((univ.filter fun i => X i = u ∧ Y i = v).card : ℝ) = ∑ i, (if X i = u then 1 else 0) * (if Y i = v then 1 else 0) := by
  rw [card_filter]
  push_cast
  refine sum_congr rfl fun i _ => ?_
  split_ifs <;> simp_all

open Classical in
private theorem sum_cells {S T : Type} (X : Fin n → S) (Y : Fin n → T) (f : S → T → ℝ) :
    ∑ i, f (X i) (Y i)
      = ∑ u ∈ univ.image X, ∑ v ∈ univ.image Y, ((univ.filter fun i => X i = u ∧ Y i = v).card : ℝ) * f u v := by
  have h : ∀ i, f (X i) (Y i) = ∑ u ∈ univ.image X, ∑ v ∈ univ.image Y,
      (if X i = u then 1 else 0) * (if Y i = v then 1 else 0) * f u v := by
    intro i
    rw [sum_eq_single_of_mem (X i) (mem_image_of_mem X (mem_univ i)) fun u _ hu => by simp [Ne.symm hu],
      sum_eq_single_of_mem (Y i) (mem_image_of_mem Y (mem_univ i)) fun v _ hv => by simp [Ne.symm hv]]
    simp
  rw [sum_congr rfl fun i _ => h i, sum_comm]
  refine sum_congr rfl fun u _ => ?_
  rw [sum_comm]
  refine sum_congr rfl fun v _ => ?_
  rw [card_joint, sum_mul]

private theorem dcovSqr_flip (hn : 0 < n) (a b : Fin n → Fin n → ℝ) :
    Spec.dcovSqr (fun i j => 1 - a i j) (fun i j => 1 - b i j) = Spec.dcovSqr a b := by
  have hn' : (n : ℝ) ≠ 0 := by positivity
  have h (a : Fin n → Fin n → ℝ) (i j : Fin n) : Spec.centre (fun i j => 1 - a i j) i j = -Spec.centre a i j := by
    unfold Spec.centre
    simp only [sum_sub_distrib, sum_const, card_univ, Fintype.card_fin, nsmul_eq_mul, mul_one]
    field_simp
    ring
  unfold Spec.dcovSqr
  simp only [h, neg_mul_neg]

open Classical in
private theorem dcovSqr_ties {S T : Type} (hn : 0 < n) (X : Fin n → S) (Y : Fin n → T) :
    Spec.dcovSqr (fun i j => if X i = X j then 0 else 1) (fun i j => if Y i = Y j then 0 else 1)
      = ∑ u ∈ univ.image X, ∑ v ∈ univ.image Y, (jointFreq X Y u v - valueFreq X u * valueFreq Y v) ^ 2 := by
  have hn' : (n : ℝ) ≠ 0 := by positivity
  have flip {S : Type} (X : Fin n → S) : (fun i j => if X i = X j then (0 : ℝ) else 1)
      = fun i j => 1 - if X j = X i then 1 else 0 := by
    funext i j
    by_cases h : X i = X j
    · simp [h]
    · simp [h, Ne.symm h]
  have symm {S : Type} (X : Fin n → S) : Symm (fun i j => if X j = X i then (1 : ℝ) else 0) := fun i j => by
    simp only [eq_comm]
  have row {S : Type} (X : Fin n → S) (i : Fin n) :
      ∑ j, (if X j = X i then (1 : ℝ) else 0) = ((univ.filter fun j => X j = X i).card : ℝ) := by
    rw [card_filter]
    push_cast
    rfl
  have total {S : Type} (X : Fin n → S) : ∑ i, ((univ.filter fun j => X j = X i).card : ℝ)
      = ∑ u ∈ univ.image X, ((univ.filter fun j => X j = u).card : ℝ) ^ 2 := by
    rw [sum_comp (fun u => ((univ.filter fun j => X j = u).card : ℝ)) X]
    simp only [nsmul_eq_mul, sq]
  rw [flip X, flip Y, dcovSqr_flip hn, Spec.dcovSqr_eq_terms _ _ (symm X) (symm Y) hn]
  simp only [row, ← card_joint]
  rw [total, total, sum_cells X Y fun u v => ((univ.filter fun i => X i = u ∧ Y i = v).card : ℝ),
    sum_cells X Y fun u v => ((univ.filter fun i => X i = u).card : ℝ) * ((univ.filter fun i => Y i = v).card : ℝ),
    sum_mul_sum, sum_div, sum_div, mul_sum, sum_div, ← sum_sub_distrib, ← sum_add_distrib]
  refine sum_congr rfl fun u _ => ?_
  rw [sum_div, sum_div, mul_sum, sum_div, ← sum_sub_distrib, ← sum_add_distrib]
  refine sum_congr rfl fun v _ => ?_
  unfold jointFreq valueFreq
  field_simp
  ring

open Classical in
private theorem energy_ties {S : Type} (hn : 0 < n) (hm : 0 < m) (X : Fin n → S) (Y : Fin m → S) :
    2 * ((∑ i, ∑ j, if X i = Y j then (0 : ℝ) else 1) / (n * m)) - (∑ i, ∑ j, if X i = X j then (0 : ℝ) else 1) / (n * n)
        - (∑ i, ∑ j, if Y i = Y j then (0 : ℝ) else 1) / (m * m)
      = ∑ u ∈ univ.image X ∪ univ.image Y, (valueFreq X u - valueFreq Y u) ^ 2 := by
  have hn' : (n : ℝ) ≠ 0 := by positivity
  have hm' : (m : ℝ) ≠ 0 := by positivity
  have key {k l : ℕ} (hk : (k : ℝ) ≠ 0) (hl : (l : ℝ) ≠ 0) (U : Fin k → S) (V : Fin l → S) {s : Finset S}
      (hU : univ.image U ⊆ s) :
      (∑ i, ∑ j, if U i = V j then (0 : ℝ) else 1) / (k * l) = 1 - ∑ u ∈ s, valueFreq U u * valueFreq V u := by
    have h1 (i : Fin k) : ∑ j, (if U i = V j then (0 : ℝ) else 1) = l - ((univ.filter fun j => V j = U i).card : ℝ) := by
      rw [card_filter]
      push_cast
      rw [eq_sub_iff_add_eq, ← sum_add_distrib, sum_congr rfl fun j _ => show
        (if U i = V j then (0 : ℝ) else 1) + (if V j = U i then 1 else 0) = 1 from ?_]
      · simp
      · by_cases h : U i = V j
        · simp [h]
        · simp [h, Ne.symm h]
    have h2 : ∑ i, ((univ.filter fun j => V j = U i).card : ℝ)
        = ∑ u ∈ s, ((univ.filter fun i => U i = u).card : ℝ) * ((univ.filter fun j => V j = u).card : ℝ) := by
      rw [sum_comp (fun u => ((univ.filter fun j => V j = u).card : ℝ)) U]
      simp only [nsmul_eq_mul]
      refine sum_subset hU fun u _ hu => ?_
      rw [filter_false_of_mem fun i _ h => hu (mem_image.2 ⟨i, mem_univ i, h⟩)]
      simp
    simp only [h1, sum_sub_distrib, sum_const, card_univ, Fintype.card_fin, nsmul_eq_mul, h2]
    rw [sub_div, div_self (mul_ne_zero hk hl), sum_div]
    congr 1
    refine sum_congr rfl fun u _ => ?_
    unfold valueFreq
    field_simp
  rw [key hn' hm' X Y subset_union_left, key hn' hn' X X subset_union_left, key hm' hm' Y Y subset_union_right]
  rw [show ∀ a b c : ℝ, 2 * (1 - a) - (1 - b) - (1 - c) = b - 2 * a + c by intros; ring, mul_sum, ← sum_sub_distrib,
    ← sum_add_distrib]
  exact sum_congr rfl fun u _ => by ring

/-! ### Continuity -/

/-- C127: `distance_covariance_sqr`, and `distance_correlation` if neither sample is constant, are continuous in the exponent. -/
theorem C127_continuous {X : Fin n → Fin p → ℝ} {Y : Fin n → Fin q → ℝ} {x y : Arr} {o : ι → Opts} {o' : Opts} (hn : 0 < n)
    (hα : 0 < o'.exponent) (he : Tendsto (fun s => (o s).exponent) l (𝓝 o'.exponent))
    (h : ∀ᶠ s in l, Supported env x y (o s) X Y) (h' : Supported env x y o' X Y) :
    (∃ v, (distanceCovarianceSqr env x y o').out = .ok (.fin v) ∧
      ReturnsTo l (fun s => (distanceCovarianceSqr env x y (o s)).out) v) ∧
    ((∃ i j, X i ≠ X j) → (∃ i j, Y i ≠ Y j) → ∃ v, (distanceCorrelation env x y o').out = .ok (.fin v) ∧
      ReturnsTo l (fun s => (distanceCorrelation env x y (o s)).out) v) := by
  have tX := distMat_tendsto hα he X
  have tY := distMat_tendsto hα he Y
  refine ⟨⟨_, distanceCovarianceSqr_ok h' hn, _, h.mono fun s hs => distanceCovarianceSqr_ok hs hn, Spec.dcovSqr_tendsto tX tY⟩,
    fun hX hY => ⟨_, distanceCorrelation_ok h' hn, _, h.mono fun s hs => distanceCorrelation_ok hs hn, ?_⟩⟩
  refine (Spec.dcorSqr_tendsto tX tY (fun h0 => ?_) fun h0 => ?_).sqrt
  · obtain ⟨i, j, hX⟩ := hX
    exact hX ((Spec.dvar_eq_zero hn hα X).1 h0 i j)
  · obtain ⟨i, j, hY⟩ := hY
    exact hY ((Spec.dvar_eq_zero hn hα Y).1 h0 i j)

private theorem energyV_tendsto {e : ι → ℝ} (hα : 0 < α) (he : Tendsto e l (𝓝 α)) (X : Fin n → Fin p → ℝ)
    (Y : Fin m → Fin p → ℝ) : Tendsto (fun s => Spec.energyV (e s) X Y) l (𝓝 (Spec.energyV α X Y)) := by
  have c {k k' : ℕ} (U : Fin k → Fin p → ℝ) (V : Fin k' → Fin p → ℝ) :
      Tendsto (fun s => Spec.crossMean (e s) U V) l (𝓝 (Spec.crossMean α U V)) :=
    (tendsto_finsetSum _ fun i _ => tendsto_finsetSum _ fun j _ => dist_tendsto hα he (U i) (V j)).div_const _
  exact (((c X Y).const_mul 2).sub (c X X)).sub (c Y Y)

/-- C127: `energy_distance` (V-statistic) is continuous in the exponent. -/
theorem C127_energy_continuous {X : Fin n → Fin p → ℝ} {Y : Fin m → Fin p → ℝ} {x y : Arr} {o : ι → EnergyOpts}
    {o' : EnergyOpts} (hn : 0 < n) (hm : 0 < m) (hα : 0 < o'.exponent)
    (he : Tendsto (fun s => (o s).exponent) l (𝓝 o'.exponent)) (hv : ∀ s, (o s).stat.resolve env = .ok .v)
    (hv' : o'.stat.resolve env = .ok .v) (h : ∀ᶠ s in l, EnergyCall x y (o s) X Y) (h' : EnergyCall x y o' X Y) :
    ∃ v, (energyDistance env x y o').out.map Scalar.val = .ok (.fin v) ∧
      ReturnsTo l (fun s => (energyDistance env x y (o s)).out.map Scalar.val) v :=
  ⟨_, by rw [energyDistance_v h' hv' hn hm]; rfl, _, h.mono fun s hs => by beta_reduce; rw [energyDistance_v hs (hv s) hn hm]; rfl,
    energyV_tendsto hα he X Y⟩

/-! ### Small exponents -/

open Classical in
/-- C127: for exponents that tend to zero, `distance_covariance_sqr` tends to the sum of the squared differences between the
frequencies of pairs of values and the products of the frequencies of the values: it does not depend on the distances. -/
theorem C127_small_covariance {X : Fin n → Fin p → ℝ} {Y : Fin n → Fin q → ℝ} {x y : Arr} {o : ι → Opts} (hn : 0 < n)
    (he : Tendsto (fun s => (o s).exponent) l (𝓝[>] 0)) (h : ∀ᶠ s in l, Supported env x y (o s) X Y) :
    ReturnsTo l (fun s => (distanceCovarianceSqr env x y (o s)).out)
      (∑ u ∈ univ.image X, ∑ v ∈ univ.image Y, (jointFreq X Y u v - valueFreq X u * valueFreq Y v) ^ 2) := by
  refine ⟨_, h.mono fun s hs => distanceCovarianceSqr_ok hs hn, ?_⟩
  have t := Spec.dcovSqr_tendsto (distMat_tendsto_zero he X) (distMat_tendsto_zero he Y)
  convert t using 2
  convert (dcovSqr_ties hn X Y).symm

private theorem row_distinct (i : Fin n) : ∑ k, (if i = k then (0 : ℝ) else 1) = n - 1 := by
  rw [sum_congr rfl fun k _ => show (if i = k then (0 : ℝ) else 1) = 1 - (if i = k then 1 else 0) by split_ifs <;> norm_num,
    sum_sub_distrib, sum_ite_eq]
  simp

private theorem col_distinct (j : Fin n) : ∑ k, (if k = j then (0 : ℝ) else 1) = n - 1 := by
  simp only [eq_comm (b := j)]
  exact row_distinct j

private theorem dvar_distinct (hn : 2 ≤ n) :
    Spec.dcovSqr (fun i j : Fin n => if i = j then (0 : ℝ) else 1) (fun i j => if i = j then 0 else 1) ≠ 0 := by
  rw [Ne, Spec.dcovSqr_self_eq_zero (by omega)]
  intro h
  have hn' : (2 : ℝ) ≤ n := by exact_mod_cast hn
  have h0 : (0 : ℝ) < n := by linarith
  have e := congrFun (congrFun h ⟨0, by omega⟩) ⟨0, by omega⟩
  simp only [Spec.centre, row_distinct, col_distinct, if_true, sum_const, card_univ, Fintype.card_fin, nsmul_eq_mul, Pi.zero_apply] at e
  field_simp at e
  nlinarith

/-- C127: if all observations of each sample are different, then `distance_correlation` tends to 1 for exponents that tend to
zero, however independent the samples are. -/
theorem C127_small_correlation {X : Fin n → Fin p → ℝ} {Y : Fin n → Fin q → ℝ} {x y : Arr} {o : ι → Opts} (hn : 2 ≤ n)
    (hX : Function.Injective X) (hY : Function.Injective Y) (he : Tendsto (fun s => (o s).exponent) l (𝓝[>] 0))
    (h : ∀ᶠ s in l, Supported env x y (o s) X Y) :
    ReturnsTo l (fun s => (distanceCorrelation env x y (o s)).out) 1 := by
  classical
  refine ⟨_, h.mono fun s hs => distanceCorrelation_ok hs (by omega), ?_⟩
  have tX := distMat_tendsto_zero he X
  have tY := distMat_tendsto_zero he Y
  simp only [hX.eq_iff] at tX
  simp only [hY.eq_iff] at tY
  have h0 := dvar_distinct hn
  have t := (Spec.dcorSqr_tendsto tX tY (by convert h0) (by convert h0)).sqrt
  have one (a : Fin n → Fin n → ℝ) (h : Spec.dcovSqr a a ≠ 0) : √(Spec.dcorSqr a a) = 1 := by
    unfold Spec.dcorSqr Spec.ratio
    rw [if_neg (mul_ne_zero h h), abs_mul_self, Real.sqrt_mul_self (Spec.dcovSqr_self_nonneg a), div_self h, Real.sqrt_one]
  convert t using 2
  exact (one _ (by convert h0)).symm

open Classical in
/-- C127: for exponents that tend to zero, `energy_distance` (V-statistic) tends to the sum of the squared differences of the
frequencies of the values. -/
theorem C127_small_energy {X : Fin n → Fin p → ℝ} {Y : Fin m → Fin p → ℝ} {x y : Arr} {o : ι → EnergyOpts} (hn : 0 < n)
    (hm : 0 < m) (he : Tendsto (fun s => (o s).exponent) l (𝓝[>] 0)) (hv : ∀ s, (o s).stat.resolve env = .ok .v)
    (h : ∀ᶠ s in l, EnergyCall x y (o s) X Y) :
    ReturnsTo l (fun s => (energyDistance env x y (o s)).out.map Scalar.val)
      (∑ u ∈ univ.image X ∪ univ.image Y, (valueFreq X u - valueFreq Y u) ^ 2) := by
  refine ⟨_, h.mono fun s hs => by beta_reduce; rw [energyDistance_v hs (hv s) hn hm]; rfl, ?_⟩
  have c {k k' : ℕ} (U : Fin k → Fin p → ℝ) (V : Fin k' → Fin p → ℝ) :
      Tendsto (fun s => Spec.crossMean (o s).exponent U V) l
        (𝓝 ((∑ i, ∑ j, if U i = V j then (0 : ℝ) else 1) / (k * k'))) :=
    (tendsto_finsetSum _ fun i _ => tendsto_finsetSum _ fun j _ => dist_tendsto_zero he (U i) (V j)).div_const _
  have t := (((c X Y).const_mul 2).sub (c X X)).sub (c Y Y)
  have e := energy_ties hn hm X Y
  refine (t.congr fun _ => rfl).trans_eq ?_
  congr 1
  convert e

/-- C127: if all observations of one of the samples are different, then `u_distance_covariance_sqr` tends to 0 for exponents that
tend to zero, however dependent the samples are. -/
theorem C127_small_unbiased {X : Fin n → Fin p → ℝ} {Y : Fin n → Fin q → ℝ} {x y : Arr} {o : ι → Opts} (hn : 3 < n)
    (hX : Function.Injective X) (he : Tendsto (fun s => (o s).exponent) l (𝓝[>] 0))
    (h : ∀ᶠ s in l, Supported env x y (o s) X Y) :
    ReturnsTo l (fun s => (uDistanceCovarianceSqr env x y (o s)).out) 0 := by
  classical
  refine ⟨fun s => Spec.uDcovSqr (Spec.distMat (o s).exponent X) (Spec.distMat (o s).exponent Y), ?_, ?_⟩
  · filter_upwards [h, he.eventually self_mem_nhdsWithin] with s hs h0
    exact uDistanceCovarianceSqr_ok hs hn (ne_of_gt h0)
  have tX := distMat_tendsto_zero he X
  have tY := distMat_tendsto_zero he Y
  have cont : Continuous fun r : (Fin n → Fin n → ℝ) × (Fin n → Fin n → ℝ) => Spec.uDcovSqr r.1 r.2 := by
    have u : Continuous fun a : Fin n → Fin n → ℝ => Spec.uCentre a := by
      refine continuous_pi fun i => continuous_pi fun j => ?_
      unfold Spec.uCentre
      split_ifs
      · exact continuous_const
      · fun_prop
    have u' (i j : Fin n) : Continuous fun a : Fin n → Fin n → ℝ => Spec.uCentre a i j :=
      (continuous_apply j).comp ((continuous_apply i).comp u)
    unfold Spec.uDcovSqr Spec.uInner
    refine Continuous.div_const (continuous_finsetSum _ fun i _ => continuous_finsetSum _ fun j _ => ?_) _
    exact ((u' i j).comp continuous_fst).mul ((u' i j).comp continuous_snd)
  have t := (cont.tendsto _).comp (tX.prodMk_nhds tY)
  have z : Spec.uCentre (fun i j => if X i = X j then (0 : ℝ) else 1) = fun _ _ => 0 := by
    simp only [hX.eq_iff]
    have hn' : (3 : ℝ) < n := by exact_mod_cast hn
    funext i j
    unfold Spec.uCentre
    split_ifs with hij
    · rfl
    · simp only [row_distinct, col_distinct, if_neg hij, sum_const, card_univ, Fintype.card_fin, nsmul_eq_mul]
      have h1 : (n : ℝ) - 1 ≠ 0 := by linarith
      have h2 : (n : ℝ) - 2 ≠ 0 := by linarith
      field_simp
      ring
  have e : Spec.uDcovSqr (fun i j => if X i = X j then (0 : ℝ) else 1) (fun i j => if Y i = Y j then (0 : ℝ) else 1) = 0 := by
    unfold Spec.uDcovSqr Spec.uInner
    rw [z]
    simp
  rw [← e]
  exact t

/-- C127: with the exponent zero itself `distance_covariance_sqr` is 0: the limits are not values. -/
theorem C127_exponent_zero {X : Fin n → Fin p → ℝ} {Y : Fin n → Fin q → ℝ} {x y : Arr} {o : Opts} (hn : 0 < n)
    (h : Supported env x y o X Y) (he : o.exponent = 0) : (distanceCovarianceSqr env x y o).out = .ok (.fin 0) := by
  have c : Spec.centre (Spec.distMat 0 X) = 0 := by
    have hn' : (n : ℝ) ≠ 0 := by positivity
    funext i j
    simp only [Spec.centre, Spec.distMat, Spec.dist, Real.rpow_zero, sum_const, card_univ, Fintype.card_fin, nsmul_eq_mul,
      mul_one, Pi.zero_apply]
    field_simp
    ring
  rw [distanceCovarianceSqr_ok h hn, he, Spec.dcovSqr, c]
  simp

/-! ### Cases -/

/-- Exponents 1, 1/2, 1/3, … -/
private theorem harmonic : Tendsto (fun s : ℕ => 1 / ((s : ℝ) + 1)) atTop (𝓝[>] 0) :=
  tendsto_nhdsWithin_iff.2 ⟨tendsto_one_div_add_atTop_nhds_zero_nat, Eventually.of_forall fun _ => Set.mem_Ioi.2 Nat.one_div_pos_of_nat⟩

/-- Four points of the plane, the corners of a rectangle. -/
private def corners : Fin 4 → Fin 2 → ℝ := ![![0, 0], ![0, 1], ![2, 0], ![2, 1]]

private theorem corners_injective : Function.Injective corners := by
  intro i j h
  have h0 := congrFun h 0
  have h1 := congrFun h 1
  fin_cases i <;> fin_cases j <;> simp_all [corners]

private def numbered (v : Fin 4 → ℝ) : Fin 4 → Fin 1 → ℝ := fun i _ => v i

private theorem numbered_injective : Function.Injective (numbered ![0, 3, 1, 7]) := by
  intro i j h
  have h0 := congrFun h 0
  fin_cases i <;> fin_cases j <;> simp_all [numbered]

/-- The correlation of four points of the plane with four numbers tends to 1. -/
example : ReturnsTo atTop (fun s : ℕ => (distanceCorrelation stdEnv (npMat corners) (npMat (numbered ![0, 3, 1, 7]))
    ⟨1 / ((s : ℝ) + 1), .enum .naive, .auto⟩).out) 1 :=
  C127_small_correlation (by norm_num) corners_injective numbered_injective harmonic
    (Eventually.of_forall fun s => supported_mat _ _ _ (by positivity))

/-- Their bias-corrected covariance tends to 0, and so does that of the points with themselves. -/
example : ReturnsTo atTop (fun s : ℕ => (uDistanceCovarianceSqr stdEnv (npMat corners) (npMat corners)
    ⟨1 / ((s : ℝ) + 1), .enum .naive, .auto⟩).out) 0 :=
  C127_small_unbiased (by norm_num) corners_injective harmonic
    (Eventually.of_forall fun s => supported_mat _ _ _ (by positivity))

/-- Frequencies of samples of two values. -/
example : ReturnsTo atTop (fun s : ℕ => (distanceCovarianceSqr stdEnv (npMat (numbered ![0, 0, 5, 5])) (npMat (numbered ![1, 1, 1, 9]))
    ⟨1 / ((s : ℝ) + 1), .enum .naive, .auto⟩).out)
    (∑ u ∈ univ.image (numbered ![0, 0, 5, 5]), ∑ v ∈ univ.image (numbered ![1, 1, 1, 9]),
      (jointFreq (numbered ![0, 0, 5, 5]) (numbered ![1, 1, 1, 9]) u v
        - valueFreq (numbered ![0, 0, 5, 5]) u * valueFreq (numbered ![1, 1, 1, 9]) v) ^ 2) := by
  convert C127_small_covariance (by norm_num) harmonic
    (Eventually.of_forall fun s : ℕ =>
      supported_mat (numbered ![0, 0, 5, 5]) (numbered ![1, 1, 1, 9]) (1 / ((s : ℝ) + 1)) (by positivity))

example : ReturnsTo atTop (fun s : ℕ => (energyDistance stdEnv (npMat (numbered ![0, 0, 5, 5])) (npMat (numbered ![0, 1, 1, 9]))
    ⟨1 / ((s : ℝ) + 1), none, .enum .v⟩).out.map Scalar.val)
    (∑ u ∈ univ.image (numbered ![0, 0, 5, 5]) ∪ univ.image (numbered ![0, 1, 1, 9]),
      (valueFreq (numbered ![0, 0, 5, 5]) u - valueFreq (numbered ![0, 1, 1, 9]) u) ^ 2) := by
  convert C127_small_energy (by norm_num) (by norm_num) harmonic (fun _ => rfl)
    (Eventually.of_forall fun s : ℕ => energyCall_mat (numbered ![0, 0, 5, 5]) (numbered ![0, 1, 1, 9])
      (α := 1 / ((s : ℝ) + 1)) (by positivity) (.enum .v))

/-- Exponents close to 1. -/
example : ∃ v, (distanceCorrelation stdEnv (npMat corners) (npMat (numbered ![0, 3, 1, 7])) ⟨1, .enum .naive, .auto⟩).out
      = .ok (.fin v) ∧
    ReturnsTo (𝓝[>] (1 : ℝ)) (fun e => (distanceCorrelation stdEnv (npMat corners) (npMat (numbered ![0, 3, 1, 7]))
      ⟨e, .enum .naive, .auto⟩).out) v :=
  (C127_continuous (by norm_num) one_pos (tendsto_id.mono_left nhdsWithin_le_nhds)
    (Filter.mem_of_superset self_mem_nhdsWithin fun e (he : 1 < e) => supported_mat _ _ _ (by linarith))
    (supported_mat _ _ _ zero_le_one)).2 ⟨0, 1, fun h => by simpa using corners_injective h⟩
    ⟨0, 1, fun h => by simpa using numbered_injective h⟩

example : ∃ v, (energyDistance stdEnv (npMat corners) (npMat ![![1, 1]]) ⟨1, none, .enum .v⟩).out.map Scalar.val
      = .ok (.fin v) ∧
    ReturnsTo (𝓝[>] (1 : ℝ)) (fun e => (energyDistance stdEnv (npMat corners) (npMat ![![1, 1]])
      ⟨e, none, .enum .v⟩).out.map Scalar.val) v :=
  C127_energy_continuous (by norm_num) one_pos one_pos (tendsto_id.mono_left nhdsWithin_le_nhds) (fun _ => rfl) rfl
    (Filter.mem_of_superset self_mem_nhdsWithin fun e (he : 1 < e) => energyCall_mat _ _ (by linarith) _)
    (energyCall_mat _ _ zero_le_one _)

example : (distanceCovarianceSqr stdEnv (npMat corners) (npMat (numbered ![0, 3, 1, 7])) ⟨0, .enum .naive, .auto⟩).out
    = .ok (.fin 0) := C127_exponent_zero (by norm_num) (supported_mat _ _ _ le_rfl) rfl

end Dcor.Props

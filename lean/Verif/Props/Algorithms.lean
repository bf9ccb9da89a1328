/-
Properties C01-C09: the algorithms compute the defined statistics.
-/
import Verif.Proofs.Api
import Verif.Proofs.Centering
import Verif.Props.Witness

namespace Dcor.Props

open Finset

variable {n p q : ℕ} {env : Env} {x y : Arr} {o o' : Opts}

/-- Matrix of absolute differences of a scalar sample. -/
def absDiff (v : Fin n → ℝ) : Fin n → Fin n → ℝ := fun i j => |v i - v j|

private theorem distMat_absDiff (X : Fin n → Fin 1 → ℝ) :
    Spec.distMat 1 X = absDiff (fun i => X i 0) := by
  funext i j; exact distMat_one X i j

/-! ### C01 -/

/-- C01, biased: `method='avl'` returns the defined value for all samples of length `n > 3`. The
order `argsort` gives to ties is arbitrary (it is part of `env`). -/
theorem C01_avl_dcov {v w : Fin n → ℝ} (hx : Holds x.data n 1 fun i _ => v i)
    (hy : Holds y.data n 1 fun i _ => w i) (hm : toAlgorithm env o.method = .ok .avl)
    (hok : AvlOk x y n 1 1 o.exponent o.compileMode) :
    (distanceCovarianceSqr env x y o).out
      = .ok (.fin (Spec.dcovSqr (absDiff v) (absDiff w))) := by
  have h := distanceCovarianceSqr_ok (o := o) ⟨hx, hy, .avl, hm, hok⟩ (by have := hok.2.2.2.1; omega)
  rw [hok.1, distMat_absDiff, distMat_absDiff] at h
  exact h

/-- C01, bias-corrected. -/
theorem C01_avl_udcov {v w : Fin n → ℝ} (hx : Holds x.data n 1 fun i _ => v i)
    (hy : Holds y.data n 1 fun i _ => w i) (hm : toAlgorithm env o.method = .ok .avl)
    (hok : AvlOk x y n 1 1 o.exponent o.compileMode) :
    (uDistanceCovarianceSqr env x y o).out
      = .ok (.fin (Spec.uDcovSqr (absDiff v) (absDiff w))) := by
  have h := uDistanceCovarianceSqr_ok (o := o) ⟨hx, hy, .avl, hm, hok⟩ hok.2.2.2.1
    (by rw [hok.1]; norm_num)
  rw [hok.1, distMat_absDiff, distMat_absDiff] at h
  exact h

/-- The hypotheses of C01 hold for a sample of length five with ties, forced compilation. -/
example : AvlOk (npVec ![0, 3, 3, 1, (2 : ℝ)]) (npVec ![1, 1, 4, 0, (2 : ℝ)]) 5 1 1 1 .compileCpu :=
  ⟨rfl, rfl, rfl, by norm_num, Or.inl rfl, by decide, fun _ => ⟨rfl, rfl⟩, Iff.rfl⟩

/-! ### C02 -/

/-- C02, biased: `method='mergesort'` returns the defined value for every non-empty sample. -/
theorem C02_mergesort_dcov {v w : Fin n → ℝ} (hx : Holds x.data n 1 fun i _ => v i)
    (hy : Holds y.data n 1 fun i _ => w i) (hm : toAlgorithm env o.method = .ok .mergesort)
    (hok : MergesortOk x y n 1 1 o.exponent o.compileMode) :
    (distanceCovarianceSqr env x y o).out
      = .ok (.fin (Spec.dcovSqr (absDiff v) (absDiff w))) := by
  have h := distanceCovarianceSqr_ok (o := o) ⟨hx, hy, .mergesort, hm, hok⟩ hok.2.2.2.1
  rw [hok.1, distMat_absDiff, distMat_absDiff] at h
  exact h

/-- C02, bias-corrected, for `n > 3` (for smaller samples see C19). -/
theorem C02_mergesort_udcov {v w : Fin n → ℝ} (hx : Holds x.data n 1 fun i _ => v i)
    (hy : Holds y.data n 1 fun i _ => w i) (hm : toAlgorithm env o.method = .ok .mergesort)
    (hok : MergesortOk x y n 1 1 o.exponent o.compileMode) (hn : 3 < n) :
    (uDistanceCovarianceSqr env x y o).out
      = .ok (.fin (Spec.uDcovSqr (absDiff v) (absDiff w))) := by
  have h := uDistanceCovarianceSqr_ok (o := o) ⟨hx, hy, .mergesort, hm, hok⟩ hn
    (by rw [hok.1]; norm_num)
  rw [hok.1, distMat_absDiff, distMat_absDiff] at h
  exact h

/-- The hypotheses of C02 hold for a sample of length three with ties. -/
example : MergesortOk (npVec ![3, 3, (1 : ℝ)]) (npVec ![1, 4, (1 : ℝ)]) 3 1 1 1 .auto :=
  ⟨rfl, rfl, rfl, by norm_num, Or.inl rfl, by decide, fun _ => ⟨rfl, rfl⟩, rfl, rfl,
    fun h => by simp [npVec] at h⟩

/-! ### C03 -/

/-- C03: two supported calls on the same samples with the same exponent return the same value
from every biased function, whatever the method and the compile mode. -/
theorem C03_method_irrelevant {X : Fin n → Fin p → ℝ} {Y : Fin n → Fin q → ℝ}
    (h : Supported env x y o X Y) (h' : Supported env x y o' X Y)
    (he : o.exponent = o'.exponent) (hn : 0 < n) :
    (distanceCovarianceSqr env x y o).out = (distanceCovarianceSqr env x y o').out ∧
    (distanceCovariance env x y o).out = (distanceCovariance env x y o').out ∧
    (distanceStatsSqr env x y o).out = (distanceStatsSqr env x y o').out ∧
    (distanceStats env x y o).out = (distanceStats env x y o').out ∧
    (distanceCorrelationSqr env x y o).out = (distanceCorrelationSqr env x y o').out ∧
    (distanceCorrelation env x y o).out = (distanceCorrelation env x y o').out ∧
    ∃ c : ℝ, (distanceCovarianceSqr env x y o).out = .ok (.fin c) := by
  refine ⟨?_, ?_, ?_, ?_, ?_, ?_, _, distanceCovarianceSqr_ok h hn⟩
  · rw [distanceCovarianceSqr_ok h hn, distanceCovarianceSqr_ok h' hn, he]
  · rw [distanceCovariance_ok h hn, distanceCovariance_ok h' hn, he]
  · rw [distanceStatsSqr_ok h hn, distanceStatsSqr_ok h' hn, he]
  · rw [distanceStats_ok h hn, distanceStats_ok h' hn, he]
  · rw [distanceCorrelationSqr_ok h hn, distanceCorrelationSqr_ok h' hn, he]
  · rw [distanceCorrelation_ok h hn, distanceCorrelation_ok h' hn, he]

/-- C03 for the bias-corrected functions (`n > 3`). -/
theorem C03_method_irrelevant_unbiased {X : Fin n → Fin p → ℝ} {Y : Fin n → Fin q → ℝ}
    (h : Supported env x y o X Y) (h' : Supported env x y o' X Y)
    (he : o.exponent = o'.exponent) (he0 : o.exponent ≠ 0) (hn : 3 < n) :
    (uDistanceCovarianceSqr env x y o).out = (uDistanceCovarianceSqr env x y o').out ∧
    (uDistanceStatsSqr env x y o).out = (uDistanceStatsSqr env x y o').out ∧
    (uDistanceCorrelationSqr env x y o).out = (uDistanceCorrelationSqr env x y o').out ∧
    ∃ c : ℝ, (uDistanceCovarianceSqr env x y o).out = .ok (.fin c) := by
  have he0' : o'.exponent ≠ 0 := he ▸ he0
  refine ⟨?_, ?_, ?_, _, uDistanceCovarianceSqr_ok h hn he0⟩
  · rw [uDistanceCovarianceSqr_ok h hn he0, uDistanceCovarianceSqr_ok h' hn he0', he]
  · rw [uDistanceStatsSqr_ok h hn he0, uDistanceStatsSqr_ok h' hn he0', he]
  · rw [uDistanceCorrelationSqr_ok h hn he0, uDistanceCorrelationSqr_ok h' hn he0', he]

/-- Univariate `float64` samples are supported by all four methods. -/
example (m m' : Method) :
    Supported stdEnv (npVec ![0, 3, 3, (1 : ℝ)]) (npVec ![1, 1, 4, (0 : ℝ)]) ⟨1, .enum m, .auto⟩
      (fun i (_ : Fin 1) => ![0, 3, 3, (1 : ℝ)] i) (fun i (_ : Fin 1) => ![1, 1, 4, (0 : ℝ)] i) ∧
    Supported stdEnv (npVec ![0, 3, 3, (1 : ℝ)]) (npVec ![1, 1, 4, (0 : ℝ)])
      ⟨1, .enum m', .noCompile⟩
      (fun i (_ : Fin 1) => ![0, 3, 3, (1 : ℝ)] i) (fun i (_ : Fin 1) => ![1, 1, 4, (0 : ℝ)] i) :=
  ⟨supported_vec (by norm_num) _ _ m .auto (Or.inl rfl),
   supported_vec (by norm_num) _ _ m' .noCompile (Or.inr rfl)⟩

/-! ### C04 -/

/-- C04: the compiled and the pure-Python implementation return the same result for every sample
size, even if their `argsort` break ties differently. Any ordered ring (floats, fractions,
integers without overflow). -/
theorem C04_compiled_agrees {R : Type} [CommRing R] [LinearOrder R] [IsStrictOrderedRing R]
    (sort sort' : (Fin n → R) → Equiv.Perm (Fin n))
    (hs : ∀ v : Fin n → R, Monotone fun i => v (sort v i))
    (hs' : ∀ v : Fin n → R, Monotone fun i => v (sort' v i))
    (v w : Fin n → R) : avlTermsImpl true sort v w = avlTermsImpl false sort' v w := by
  by_cases hn : 3 < n
  · rw [avlTermsImpl_eq_permTerms _ _ _ _ hn, avlTermsImpl_eq_permTerms _ _ _ _ hn,
      permTerms_eq _ _ _ _ _ (hs v) (hs w) (hs fun i => w (sort v i)),
      permTerms_eq _ _ _ _ _ (hs' v) (hs' w) (hs' fun i => w (sort' v i))]
  · unfold avlTermsImpl
    simp [hn]

/-- C04 for the two inner loops themselves, on all data within the range of the buffer. -/
theorem C04_inner_loops {R : Type} [AddCommMonoid R] {L : ℕ} (ranks : Fin n → ℤ)
    (c : Fin n → R) (hr : ∀ i, 1 ≤ ranks i ∧ ranks i ≤ 2 ^ L)
    (s s' : Fin (2 ^ (L + 1)) → R) :
    dyadUpdateCompiled ranks c (fun _ => 0) L s (posSums L)
      = dyadUpdate ranks c (fun _ => 0) L s' (posSums L) := by
  rw [dyadUpdateCompiled_eq _ _ hr, dyadUpdate_eq _ _ _ hr]

example : (∀ v : Fin 6 → ℝ, Monotone fun i => v (Tuple.sort v i)) ∧ (∀ i : Fin 4,
    1 ≤ (![3, 1, 4, 2] i : ℤ) ∧ (![3, 1, 4, 2] i : ℤ) ≤ 2 ^ 2) :=
  ⟨fun v => Tuple.monotone_sort v, by decide⟩

/-! ### C05 -/

/-- C05: with more than three observations no array access of the AVL algorithm is out of bounds,
in either version, in any ring (so also for wrapped integers), for any permutation returned by
`argsort`. Accesses are checked in the model, hence "returns" means "all in bounds". -/
theorem C05_avl_in_bounds {R : Type} [CommRing R] (compiled : Bool)
    (sort : (Fin n → R) → Equiv.Perm (Fin n)) (v w : Fin n → R) (hn : 3 < n) :
    ∃ t, avlTermsImpl compiled sort v w = .ok t :=
  ⟨_, avlTermsImpl_eq_permTerms compiled sort v w hn⟩

/-! ### C06 -/

/-- C06: the merge loops terminate (they are total functions), stay in bounds, and the final index
buffer is a permutation sorted by decreasing `y`; for any total preorder `ge`. -/
theorem C06_merge_sorts {R Y : Type} [AddCommGroup R] {V : ℕ} (ge : Y → Y → Bool)
    (htotal : ∀ a b, ge a b = true ∨ ge b a = true)
    (htrans : ∀ a b c, ge a b = true → ge b c = true → ge a c = true)
    (w : Fin n → Y) (weights : Fin n → Fin V → R) :
    ∃ (π : Equiv.Perm (Fin n)) (ws : Fin n → Fin V → R) (u : ℕ),
      computeWeightSums ge w weights = .ok (fun i => (π i : ℕ), ws, u) ∧
      (∀ s t, s ≤ t → ge (w (π s)) (w (π t)) = true) ∧
      ∀ j v, ws j v = ∑ i ∈ univ.filter (fun i => i < j ∧ ge (w i) (w j) = false),
        weights i v := by
  obtain ⟨π, u, e, hs⟩ := computeWeightSums_eq ⟨htotal, htrans⟩ w weights
  refine ⟨π, _, u, e, hs, ?_⟩
  intro j v
  rw [Finset.sum_apply]

/-- C06: the mergesort implementation never fails on non-empty samples. -/
theorem C06_mergesort_in_bounds {R : Type} [CommRing R] (ge : R → R → Bool)
    (htotal : ∀ a b, ge a b = true ∨ ge b a = true)
    (htrans : ∀ a b c, ge a b = true → ge b c = true → ge a c = true)
    (sort : (Fin n → R) → Equiv.Perm (Fin n)) (v w : Fin n → R) (hn : 0 < n) :
    ∃ t, mergesortTermsImpl ge sort v w = .ok t := by
  obtain ⟨u, h⟩ := mergesortTermsImpl_eq ⟨htotal, htrans⟩ sort v w hn
  exact ⟨_, h⟩

example : (∀ a b : ℤ, decide (a ≥ b) = true ∨ decide (b ≥ a) = true) ∧
    (∀ a b c : ℤ, decide (a ≥ b) = true → decide (b ≥ c) = true → decide (a ≥ c) = true) := by
  constructor
  · intro a b; simp; exact le_total b a
  · intro a b c; simp; intro h1 h2; exact le_trans h2 h1

/-! ### C07 -/

/-- C07: the fields of `distance_stats_sqr` are the values of the individual functions. -/
theorem C07_stats {X : Fin n → Fin p → ℝ} {Y : Fin n → Fin q → ℝ}
    (h : Supported env x y o X Y) (hxx : Supported env x x o X X)
    (hyy : Supported env y y o Y Y) (hn : 0 < n) :
    ∃ c vx vy : ℝ,
      (distanceCovarianceSqr env x y o).out = .ok (.fin c) ∧
      (distanceCovarianceSqr env x x o).out = .ok (.fin vx) ∧
      (distanceCovarianceSqr env y y o).out = .ok (.fin vy) ∧
      (distanceCorrelationSqr env x y o).out
        = .ok (.fin (if vx * vy = 0 then 0 else c / Real.sqrt |vx * vy|)) ∧
      (distanceStatsSqr env x y o).out
        = .ok ⟨.fin c, .fin (if vx * vy = 0 then 0 else c / Real.sqrt |vx * vy|), .fin vx,
            .fin vy⟩ :=
  ⟨_, _, _, distanceCovarianceSqr_ok h hn, distanceCovarianceSqr_ok hxx hn,
    distanceCovarianceSqr_ok hyy hn, distanceCorrelationSqr_ok h hn, distanceStatsSqr_ok h hn⟩

/-- C07 for the bias-corrected functions. -/
theorem C07_ustats {X : Fin n → Fin p → ℝ} {Y : Fin n → Fin q → ℝ}
    (h : Supported env x y o X Y) (hxx : Supported env x x o X X)
    (hyy : Supported env y y o Y Y) (hn : 3 < n) (he : o.exponent ≠ 0) :
    ∃ c vx vy : ℝ,
      (uDistanceCovarianceSqr env x y o).out = .ok (.fin c) ∧
      (uDistanceCovarianceSqr env x x o).out = .ok (.fin vx) ∧
      (uDistanceCovarianceSqr env y y o).out = .ok (.fin vy) ∧
      (uDistanceCorrelationSqr env x y o).out
        = .ok (.fin (if vx * vy = 0 then 0 else c / Real.sqrt |vx * vy|)) ∧
      (uDistanceStatsSqr env x y o).out
        = .ok ⟨.fin c, .fin (if vx * vy = 0 then 0 else c / Real.sqrt |vx * vy|), .fin vx,
            .fin vy⟩ :=
  ⟨_, _, _, uDistanceCovarianceSqr_ok h hn he, uDistanceCovarianceSqr_ok hxx hn he,
    uDistanceCovarianceSqr_ok hyy hn he, uDistanceCorrelationSqr_ok h hn he,
    uDistanceStatsSqr_ok h hn he⟩

/-- C07: the shortcut `2 n² var(x)` of the fast methods is the sum of squared differences. -/
theorem C07_variance_shortcut (hn : 0 < n) (v : Fin n → ℝ) :
    varTerm v = ∑ i, ∑ j, |v i - v j| ^ 2 := by
  rw [varTerm_eq hn]
  simp only [sq]

example (m : Method) : Supported stdEnv (npVec ![0, 3, 3, (1 : ℝ)]) (npVec ![0, 3, 3, (1 : ℝ)])
    ⟨1, .enum m, .auto⟩ (fun i (_ : Fin 1) => ![0, 3, 3, (1 : ℝ)] i)
    (fun i (_ : Fin 1) => ![0, 3, 3, (1 : ℝ)] i) :=
  supported_vec (by norm_num) _ _ m .auto (Or.inl rfl)

/-! ### C08, C09 -/

/-- C08: the squared distance covariance is the mean product of the double centred distance
matrices (as computed by `pairwise_distances`, `double_centered`, `mean_product`). -/
theorem C08_biased_is_mean_product {X : Fin n → Fin p → ℝ} {Y : Fin n → Fin q → ℝ}
    (h : Supported env x y o X Y) (hn : 0 < n) :
    ∃ dx dy : Fin n → Fin n → ℝ,
      pairwiseDistances1 env x o.exponent = .ok ⟨n, dx⟩ ∧
      pairwiseDistances1 env y o.exponent = .ok ⟨n, dy⟩ ∧
      (distanceCovarianceSqr env x y o).out = .ok (meanProduct
        (doubleCentered (FMat.ofReal dx)) (doubleCentered (FMat.ofReal dy))) := by
  have hd := h.decimal
  refine ⟨Spec.distMat o.exponent X, Spec.distMat o.exponent Y, ?_, ?_, ?_⟩
  · unfold pairwiseDistances1
    rw [h.hx.to2d]
    simp only [Except.ok_bind', pdist_eq env _ _ X _ (fun e => hd (Or.inl e)), Except.pure_eq]
  · unfold pairwiseDistances1
    rw [h.hy.to2d]
    simp only [Except.ok_bind', pdist_eq env _ _ Y _ (fun e => hd (Or.inr e)), Except.pure_eq]
  · rw [distanceCovarianceSqr_ok h hn, doubleCentered_symm _ (Spec.distMat_symm _ _),
      doubleCentered_symm _ (Spec.distMat_symm _ _), meanProduct_ofReal hn]
    rfl

/-- C09: the bias-corrected estimator is the U-product of the U-centred distance matrices. -/
theorem C09_unbiased_is_u_product {X : Fin n → Fin p → ℝ} {Y : Fin n → Fin q → ℝ}
    (h : Supported env x y o X Y) (hn : 3 < n) (he : o.exponent ≠ 0) :
    ∃ dx dy : Fin n → Fin n → ℝ,
      pairwiseDistances1 env x o.exponent = .ok ⟨n, dx⟩ ∧
      pairwiseDistances1 env y o.exponent = .ok ⟨n, dy⟩ ∧
      (uDistanceCovarianceSqr env x y o).out = .ok (uProduct
        (uCentered (FMat.ofReal dx)) (uCentered (FMat.ofReal dy))) := by
  have hd := h.decimal
  refine ⟨Spec.distMat o.exponent X, Spec.distMat o.exponent Y, ?_, ?_, ?_⟩
  · unfold pairwiseDistances1
    rw [h.hx.to2d]
    simp only [Except.ok_bind', pdist_eq env _ _ X _ (fun e => hd (Or.inl e)), Except.pure_eq]
  · unfold pairwiseDistances1
    rw [h.hy.to2d]
    simp only [Except.ok_bind', pdist_eq env _ _ Y _ (fun e => hd (Or.inr e)), Except.pure_eq]
  · rw [uDistanceCovarianceSqr_ok h hn he, uCentered_symm (by omega) _ (Spec.distMat_symm _ _),
      uCentered_symm (by omega) _ (Spec.distMat_symm _ _), uProduct_ofReal hn]
    unfold Spec.uDcovSqr
    rw [Spec.uInner_eq _ _ (fun i => by rw [Spec.uCentre_diag, zero_mul])]

/-- Multivariate samples with a fractional exponent meet the hypotheses of C08 and C09. -/
example : Supported stdEnv (npMat ![![0, 1], ![2, 5], ![3, 3], ![(1 : ℝ), 1]])
    (npMat ![![0], ![2], ![3], ![(1 : ℝ)]]) ⟨3 / 2, .enum .naive, .auto⟩
    ![![0, 1], ![2, 5], ![3, 3], ![(1 : ℝ), 1]] ![![0], ![2], ![3], ![(1 : ℝ)]] :=
  supported_mat _ _ _ (by norm_num)

end Dcor.Props

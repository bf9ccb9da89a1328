/-
Properties C26-C28, C56: partial distance covariance and correlation.
-/
import Verif.Proofs.Partial
import Verif.Proofs.Failures
import Verif.Props.Witness

namespace Dcor.Props

open Finset

variable {n p q r : ℕ} {env : Env} {x y z : Arr} {X : Fin n → Fin p → ℝ} {Y : Fin n → Fin q → ℝ}
  {Z : Fin n → Fin r → ℝ}

/-- Three samples of the same size `n > 3`; either all or none of them are arrays of `Decimal`. -/
structure Samples3 (x y z : Arr) (X : Fin n → Fin p → ℝ) (Y : Fin n → Fin q → ℝ)
    (Z : Fin n → Fin r → ℝ) : Prop where
  hn : 3 < n
  hx : Holds x.data n p X
  hy : Holds y.data n q Y
  hz : Holds z.data n r Z
  hd : (x.dtype = .decimal ↔ y.dtype = .decimal) ∧ (y.dtype = .decimal ↔ z.dtype = .decimal)

private theorem ipXY_eq (X : Fin n → Fin p → ℝ) (Y : Fin n → Fin q → ℝ) :
    Spec.uDcovSqr (Spec.distMat 1 X) (Spec.distMat 1 Y) = uIp (Spec.uMat X) (Spec.uMat Y) :=
  Spec.uDcovSqr_eq_uIp _ _

/-! ### C26 -/

/-- C26: `partial_distance_covariance` is `⟨x,y⟩ - ⟨x,z⟩⟨y,z⟩/⟨z,z⟩` in terms of the
bias-corrected squared distance covariances, and `⟨x,y⟩` if `⟨z,z⟩ = 0`; no warning is issued. -/
theorem C26_formula (h : Samples3 x y z X Y Z) :
    partialDistanceCovariance env x y z = PyM.pure (.fin (
      let ip {s t : ℕ} (U : Fin n → Fin s → ℝ) (V : Fin n → Fin t → ℝ) :=
        Spec.uDcovSqr (Spec.distMat 1 U) (Spec.distMat 1 V)
      if ip Z Z = 0 then ip X Y else ip X Y - ip X Z * ip Y Z / ip Z Z)) := by
  rw [partialDistanceCovariance_ok env h.hn h.hx h.hy h.hz, partialDcov_eq]
  simp only [ipXY_eq]

/-- C26: it is the inner product of the two residual matrices, which are orthogonal to the U-centred
distance matrix of `z`. -/
theorem C26_residuals (h : Samples3 x y z X Y Z) :
    ∃ A B : Fin n → Fin n → ℝ,
      partialDistanceCovariance env x y z = PyM.pure (.fin (Spec.uInner A B)) ∧
      Spec.uInner A (Spec.uMat Z) = 0 ∧ Spec.uInner B (Spec.uMat Z) = 0 ∧
      (∃ s : ℝ, Spec.uMat X = fun i j => A i j + s * Spec.uMat Z i j) ∧
      (∃ t : ℝ, Spec.uMat Y = fun i j => B i j + t * Spec.uMat Z i j) := by
  have horth : ∀ a : RMat n, (∀ i, a i i = 0) →
      Spec.uInner (Spec.uResidual (Spec.uMat Z) a) (Spec.uMat Z) = 0 := by
    intro a ha
    rw [Spec.uInner_eq_uIp fun i => by rw [Spec.uMat_diag, mul_zero],
      Spec.uResidual_eq _ (Spec.uMat_diag Z)]
    exact compl_orth h.hn _ _
  have hdec : ∀ a : RMat n, ∃ s : ℝ, a
      = fun i j => Spec.uResidual (Spec.uMat Z) a i j + s * Spec.uMat Z i j := by
    intro a
    obtain ⟨s, hs⟩ := projFun_span (Spec.uMat Z) a
    refine ⟨s, ?_⟩
    rw [Spec.uResidual_eq _ (Spec.uMat_diag Z), hs]
    funext i j
    simp
  exact ⟨_, _, partialDistanceCovariance_ok env h.hn h.hx h.hy h.hz,
    horth _ (Spec.uMat_diag X), horth _ (Spec.uMat_diag Y), hdec _, hdec _⟩

/-- C26: symmetry in the first two arguments. -/
theorem C26_symmetry (h : Samples3 x y z X Y Z) :
    partialDistanceCovariance env x y z = partialDistanceCovariance env y x z := by
  rw [partialDistanceCovariance_ok env h.hn h.hx h.hy h.hz,
    partialDistanceCovariance_ok env h.hn h.hy h.hx h.hz, partialDcov_eq, partialDcov_eq,
    uIp_comm (Spec.uMat X) (Spec.uMat Y),
    mul_comm (uIp (Spec.uMat X) (Spec.uMat Z))]

/-- C26: with a constant `z`, or any `z` of zero unbiased distance variance, the result is that
of `u_distance_covariance_sqr(x, y)` for every supported option. -/
theorem C26_constant_condition (h : Samples3 x y z X Y Z) {o : Opts}
    (ho : Supported env x y o X Y) (he : o.exponent = 1)
    (hz : (∀ i j, Z i = Z j) ∨ Spec.uDcovSqr (Spec.distMat 1 Z) (Spec.distMat 1 Z) = 0) :
    (partialDistanceCovariance env x y z).out = (uDistanceCovarianceSqr env x y o).out := by
  have hz0 : Spec.uDcovSqr (Spec.distMat 1 Z) (Spec.distMat 1 Z) = 0 := by
    rcases hz with hz | hz
    · have h0 : Spec.distMat 1 Z = (0 : ℝ) • Spec.distMat 1 Z := by
        rw [(Spec.distMat_eq_zero one_pos Z).2 hz, smul_zero]
      rw [h0, Spec.uDcovSqr_smul_left, zero_mul]
    · exact hz
  rw [C26_formula h, uDistanceCovarianceSqr_ok ho h.hn (by rw [he]; exact one_ne_zero), he]
  simp only [hz0, if_true]
  rfl

/-! ### C27 -/

/-- C27: `partial_distance_correlation` is the cosine of the angle between the residuals of `x`
and `y`, zero if one of the residuals vanishes. -/
theorem C27_cosine (h : Samples3 x y z X Y Z) :
    partialDistanceCorrelation env x y z = PyM.pure (.fin (
      let a := Spec.uResidual (Spec.uMat Z) (Spec.uMat X)
      let b := Spec.uResidual (Spec.uMat Z) (Spec.uMat Y)
      if a = 0 ∨ b = 0 then 0
      else Spec.uInner a b / (Real.sqrt (Spec.uInner a a) * Real.sqrt (Spec.uInner b b)))) := by
  rw [partialDistanceCorrelation_ok env h.hn h.hx h.hy h.hz]
  have hd : ∀ a : RMat n, (∀ i, a i i = 0) →
      ∀ i, Spec.uResidual (Spec.uMat Z) a i i = 0 := by
    intro a ha i
    unfold Spec.uResidual
    split_ifs <;> simp [ha, Spec.uMat_diag]
  have hself : ∀ a : RMat n, (∀ i, a i i = 0) → Spec.uInner a a = uIp a a := fun a ha =>
    Spec.uInner_eq_uIp fun i => by rw [ha, zero_mul]
  congr 2
  unfold Spec.partialDcor Spec.partialDcov Spec.ratio
  have hA := hself _ (hd _ (Spec.uMat_diag X))
  have hB := hself _ (hd _ (Spec.uMat_diag Y))
  have hA0 : 0 ≤ Spec.uInner (Spec.uResidual (Spec.uMat Z) (Spec.uMat X))
      (Spec.uResidual (Spec.uMat Z) (Spec.uMat X)) := by rw [hA]; exact uIp_self_nonneg h.hn _
  have hB0 : 0 ≤ Spec.uInner (Spec.uResidual (Spec.uMat Z) (Spec.uMat Y))
      (Spec.uResidual (Spec.uMat Z) (Spec.uMat Y)) := by rw [hB]; exact uIp_self_nonneg h.hn _
  have hiff : Spec.uInner (Spec.uResidual (Spec.uMat Z) (Spec.uMat X))
        (Spec.uResidual (Spec.uMat Z) (Spec.uMat X))
      * Spec.uInner (Spec.uResidual (Spec.uMat Z) (Spec.uMat Y))
        (Spec.uResidual (Spec.uMat Z) (Spec.uMat Y)) = 0
      ↔ Spec.uResidual (Spec.uMat Z) (Spec.uMat X) = 0 ∨
        Spec.uResidual (Spec.uMat Z) (Spec.uMat Y) = 0 := by
    rw [mul_eq_zero, hA, hB, uIp_self_eq_zero h.hn, uIp_self_eq_zero h.hn]
  by_cases h0 : Spec.uResidual (Spec.uMat Z) (Spec.uMat X) = 0 ∨
      Spec.uResidual (Spec.uMat Z) (Spec.uMat Y) = 0
  · rw [if_pos (hiff.2 h0)]
    simp only [h0, if_true]
  · rw [if_neg (fun e => h0 (hiff.1 e)), abs_of_nonneg (mul_nonneg hA0 hB0), Real.sqrt_mul hA0]
    simp only [h0, if_false]

/-- C27: it is a number in `[-1, 1]`, although the last division is not clipped. -/
theorem C27_range (h : Samples3 x y z X Y Z) :
    ∃ t : ℝ, partialDistanceCorrelation env x y z = PyM.pure (.fin t) ∧ -1 ≤ t ∧ t ≤ 1 := by
  refine ⟨_, partialDistanceCorrelation_ok env h.hn h.hx h.hy h.hz, abs_le.1 ?_⟩
  refine Spec.abs_ratio_le_one ?_
  unfold Spec.partialDcov
  have hd : ∀ a : RMat n, (∀ i, a i i = 0) →
      ∀ i, Spec.uResidual (Spec.uMat Z) a i i = 0 := by
    intro a ha i
    unfold Spec.uResidual
    split_ifs <;> simp [ha, Spec.uMat_diag]
  have hX := hd _ (Spec.uMat_diag X)
  have hY := hd _ (Spec.uMat_diag Y)
  rw [Spec.uInner_eq_uIp fun i => by rw [hX, zero_mul],
    Spec.uInner_eq_uIp fun i => by rw [hX, zero_mul],
    Spec.uInner_eq_uIp fun i => by rw [hY, zero_mul]]
  exact uIp_cauchy h.hn _ _

/-- C27: symmetry in the first two arguments. -/
theorem C27_symmetry (h : Samples3 x y z X Y Z) :
    partialDistanceCorrelation env x y z = partialDistanceCorrelation env y x z := by
  rw [partialDistanceCorrelation_ok env h.hn h.hx h.hy h.hz,
    partialDistanceCorrelation_ok env h.hn h.hy h.hx h.hz]
  unfold Spec.partialDcor
  rw [Spec.ratio_comm, partialDcov_eq X Y Z, partialDcov_eq Y X Z,
    uIp_comm (Spec.uMat X) (Spec.uMat Y),
    mul_comm (uIp (Spec.uMat X) (Spec.uMat Z))]

/-! ### C28 -/

/-- C28: the partial correlation with the conditioning sample itself is zero. -/
theorem C28_condition_itself (h : Samples3 x z z X Z Z) :
    partialDistanceCorrelation env x z z = PyM.pure (.fin 0) := by
  rw [C27_cosine h]
  have : Spec.uResidual (Spec.uMat Z) (Spec.uMat Z) = 0 := by
    rw [Spec.uResidual_eq _ (Spec.uMat_diag Z), projFun_self h.hn, sub_self]
  simp only [this, or_true, if_true]

/-- C28: the partial correlation of a sample with itself is one, unless its U-centred distance
matrix is a multiple of that of `z`, in which case it is zero. -/
theorem C28_self (h : Samples3 x x z X X Z) :
    ((∃ t : ℝ, Spec.uMat X = fun i j => t * Spec.uMat Z i j) →
      partialDistanceCorrelation env x x z = PyM.pure (.fin 0)) ∧
    ((¬ ∃ t : ℝ, Spec.uMat X = fun i j => t * Spec.uMat Z i j) →
      partialDistanceCorrelation env x x z = PyM.pure (.fin 1)) := by
  have key : Spec.uResidual (Spec.uMat Z) (Spec.uMat X) = 0 ↔
      ∃ t : ℝ, Spec.uMat X = fun i j => t * Spec.uMat Z i j := by
    rw [Spec.uResidual_eq _ (Spec.uMat_diag Z)]
    constructor
    · intro e
      obtain ⟨t, ht⟩ := projFun_span (Spec.uMat Z) (Spec.uMat X)
      exact ⟨t, by rw [sub_eq_zero.1 e, ht]; rfl⟩
    · rintro ⟨t, ht⟩
      have ht' : Spec.uMat X = t • Spec.uMat Z := ht
      rw [ht', projFun_smul, projFun_self h.hn, sub_self]
  rw [C27_cosine h, ← key]
  constructor
  · intro h0
    simp only [h0, or_self, if_true]
  · intro h0
    simp only [h0, or_self, if_false]
    have hd : ∀ i, Spec.uResidual (Spec.uMat Z) (Spec.uMat X) i i = 0 := by
      intro i
      unfold Spec.uResidual
      split_ifs <;> simp [Spec.uMat_diag]
    have e : Spec.uInner (Spec.uResidual (Spec.uMat Z) (Spec.uMat X))
        (Spec.uResidual (Spec.uMat Z) (Spec.uMat X))
        = uIp (Spec.uResidual (Spec.uMat Z) (Spec.uMat X))
          (Spec.uResidual (Spec.uMat Z) (Spec.uMat X)) :=
      Spec.uInner_eq_uIp fun i => by rw [hd, zero_mul]
    have hp : 0 < Spec.uInner (Spec.uResidual (Spec.uMat Z) (Spec.uMat X))
        (Spec.uResidual (Spec.uMat Z) (Spec.uMat X)) := by
      rw [e]
      exact lt_of_le_of_ne (uIp_self_nonneg h.hn _)
        fun e0 => h0 ((uIp_self_eq_zero h.hn _).1 e0.symm)
    rw [Real.mul_self_sqrt hp.le, div_self hp.ne']

/-- Three samples meeting the hypotheses of C26-C28. -/
theorem samples3_example : Samples3 (npVec ![1, 1, 2, 2, (3 : ℝ)]) (npVec ![1, 2, 1, 2, (1 : ℝ)])
    (npMat ![![1, 0], ![2, 1], ![2, 5], ![1, 1], ![(2 : ℝ), 3]])
    (fun i (_ : Fin 1) => ![1, 1, 2, 2, (3 : ℝ)] i) (fun i (_ : Fin 1) => ![1, 2, 1, 2, (1 : ℝ)] i)
    ![![1, 0], ![2, 1], ![2, 5], ![1, 1], ![(2 : ℝ), 3]] :=
  ⟨by norm_num, npVec_holds _, npVec_holds _, npMat_holds _, Iff.rfl, Iff.rfl⟩

example := C26_formula (env := stdEnv) samples3_example
example := C26_residuals (env := stdEnv) samples3_example
example := C26_symmetry (env := stdEnv) samples3_example
example := C27_cosine (env := stdEnv) samples3_example
example := C27_range (env := stdEnv) samples3_example
example := C28_self (env := stdEnv)
  ⟨samples3_example.hn, samples3_example.hx, samples3_example.hx, samples3_example.hz,
    Iff.rfl, Iff.rfl⟩
example := C28_condition_itself (env := stdEnv)
  ⟨samples3_example.hn, samples3_example.hx, samples3_example.hz, samples3_example.hz,
    Iff.rfl, Iff.rfl⟩
/-- A constant conditioning sample. -/
example := C26_constant_condition (z := npMat fun _ : Fin 4 => ![7, (1 : ℝ)])
  ⟨by norm_num, npVec_holds ![0, 3, 3, (1 : ℝ)], npVec_holds ![0, 3, 5, (1 : ℝ)],
    npMat_holds fun _ => ![7, (1 : ℝ)], Iff.rfl, Iff.rfl⟩
  (supported_vec (n := 4) (by norm_num) ![0, 3, 3, (1 : ℝ)] ![0, 3, 5, (1 : ℝ)] .avl .auto
    (Or.inl rfl)) rfl (Or.inl fun _ _ => rfl)

/-! ### C56 -/

/-- C56, full statement: samples of different lengths are rejected. -/
def C56_statement : Prop :=
  ∀ (env : Env) (x y z : Arr), ¬ (x.shape0 = y.shape0 ∧ y.shape0 = z.shape0) →
    (∃ e, (partialDistanceCovariance env x y z).out = .error e) ∧
    (∃ e, (partialDistanceCorrelation env x y z).out = .error e)

private theorem uDistanceMatrix_n {a : FSq} (h : (uDistanceMatrix env x).out = .ok a) :
    a.n = x.shape0 := by
  unfold uDistanceMatrix at h
  have hc : checkValidDcovExponent 1 = PyM.pure () := by
    unfold checkValidDcovExponent
    rw [if_pos ⟨by norm_num, by norm_num⟩]
  rw [hc, PyM.pure_bind'] at h
  cases h2 : transformTo2d x.data with
  | error e => rw [h2] at h; cases h
  | ok x2 =>
    rw [h2, PyM.lift_ok_bind] at h
    cases h3 : pdist env x.ns x.dtype x2 1 with
    | error e => rw [h3] at h; cases h
    | ok d =>
      rw [h3, PyM.lift_ok_bind] at h
      by_cases h4 : objKind x x = .python ∧ ((x2.n : ℤ) - 1) * ((x2.n : ℤ) - 2) = 0
      · rw [if_pos h4] at h; cases h
      · rw [if_neg h4] at h
        cases h
        exact transformTo2d_n h2

private theorem zipWith_mismatch (f : FP ℝ → FP ℝ → FP ℝ) {a b : FSq} (h : a.n ≠ b.n)
    (ha : a.n ≠ 1) (hb : b.n ≠ 1) : FSq.zipWith f a b = .error .valueError := by
  unfold FSq.zipWith
  rw [dif_neg h, dif_neg ha, dif_neg hb]

private theorem uProductB_mismatch {a b : FSq} (h : a.n ≠ b.n) (ha : a.n ≠ 1) (hb : b.n ≠ 1) :
    uProductB a b = .error .valueError := by
  unfold uProductB
  rw [zipWith_mismatch _ h ha hb]
  rfl

private theorem compl_mismatch {a c : FSq} (d : FP ℝ) (h : a.n ≠ c.n) (ha : a.n ≠ 1)
    (hc : c.n ≠ 1) : uComplementaryProjectionB c d a = .error .valueError := by
  unfold uComplementaryProjectionB uProjectionB
  split_ifs
  · exact zipWith_mismatch _ h ha hc
  · rw [uProductB_mismatch h ha hc]
    rfl

private theorem err_bind {α β : Type} {m : PyM α} {f : α → PyM β}
    (h : ∀ a, m.out = .ok a → ∃ e, (f a).out = .error e) :
    ∃ e, (m >>= f).out = .error e := by
  cases hm : m.out with
  | error e => exact ⟨e, PyM.bind_err hm⟩
  | ok a =>
    obtain ⟨e, he⟩ := h a hm
    exact ⟨e, by rw [PyM.bind_ok hm, he]⟩

/-- C56, as far as it holds: different lengths are rejected when none of them is one. -/
theorem C56_mismatch_rejected_partial (env : Env) (x y z : Arr)
    (h : ¬ (x.shape0 = y.shape0 ∧ y.shape0 = z.shape0))
    (hx : x.shape0 ≠ 1) (hy : y.shape0 ≠ 1) (hz : z.shape0 ≠ 1) :
    (∃ e, (partialDistanceCovariance env x y z).out = .error e) ∧
    (∃ e, (partialDistanceCorrelation env x y z).out = .error e) := by
  constructor
  · unfold partialDistanceCovariance
    refine err_bind fun a ha => err_bind fun b hb => err_bind fun c hc => ?_
    have na := uDistanceMatrix_n ha
    have nb := uDistanceMatrix_n hb
    have nc := uDistanceMatrix_n hc
    rw [← na, ← nb, ← nc] at h
    rw [← na] at hx
    rw [← nb] at hy
    rw [← nc] at hz
    refine err_bind fun d _ => ?_
    by_cases hac : a.n = c.n
    · refine err_bind fun pa _ => ?_
      have hbc : b.n ≠ c.n := fun e => h ⟨hac.trans e.symm, e⟩
      rw [compl_mismatch d hbc hy hz]
      exact ⟨_, rfl⟩
    · rw [compl_mismatch d hac hx hz]
      exact ⟨_, rfl⟩
  · unfold partialDistanceCorrelation
    refine err_bind fun a ha => err_bind fun b hb => err_bind fun c hc => ?_
    have na := uDistanceMatrix_n ha
    have nb := uDistanceMatrix_n hb
    have nc := uDistanceMatrix_n hc
    rw [← na, ← nb, ← nc] at h
    rw [← na] at hx
    rw [← nb] at hy
    rw [← nc] at hz
    refine err_bind fun _ _ => err_bind fun _ _ => err_bind fun _ _ => ?_
    by_cases hab : a.n = b.n
    · refine err_bind fun _ _ => err_bind fun _ _ => ?_
      have hbc : b.n ≠ c.n := fun e => h ⟨hab, e⟩
      rw [uProductB_mismatch hbc hy hz]
      exact ⟨_, rfl⟩
    · rw [uProductB_mismatch hab hx hy]
      exact ⟨_, rfl⟩

/-- C56 fails for a sample of length one: it is silently broadcast.  With a single observation of
`z` the partial covariance of any two samples of length `n > 3` is returned as if `z` were
constant. -/
theorem C56_length_one_broadcast (hn : 3 < n) (hx : Holds x.data n p X) (hy : Holds y.data n q Y)
    (_hd : x.dtype ≠ .decimal ∧ y.dtype ≠ .decimal) (v : ℝ) :
    (partialDistanceCovariance env x y (npVec ![v])).out
      = .ok (.fin (Spec.uDcovSqr (Spec.distMat 1 X) (Spec.distMat 1 Y))) := by
  obtain ⟨kx, ex⟩ := uDistanceMatrix_ok env (by omega : 2 < n) hx
  obtain ⟨ky, ey⟩ := uDistanceMatrix_ok env (by omega : 2 < n) hy
  have hc : checkValidDcovExponent 1 = PyM.pure () := by
    unfold checkValidDcovExponent
    rw [if_pos ⟨by norm_num, by norm_num⟩]
  have ez : uDistanceMatrix env (npVec ![v]) = PyM.pure ⟨1, .numpy, fun _ _ => .fin 0⟩ := by
    unfold uDistanceMatrix
    rw [hc, PyM.pure_bind', (npVec_holds ![v]).to2d, PyM.lift_ok_bind,
      pdist_eq env _ _ _ 1 (fun _ => ⟨1, by norm_num⟩), PyM.lift_ok_bind]
    have hk : objKind (npVec ![v]) (npVec ![v]) = .numpy := rfl
    rw [if_neg (fun h => by rw [hk] at h; cases h.1), hk]
    congr 2
    funext i j
    simp [uCentered, Subsingleton.elim i j]
  have hcc : uProductB ⟨1, .numpy, fun _ _ => .fin 0⟩ ⟨1, .numpy, fun _ _ => .fin 0⟩
      = .ok (.fin 0) := by
    unfold uProductB FSq.zipWith
    simp only [dite_true]
    show npDiv .numpy (∑ _ : Fin 1, ∑ _ : Fin 1, FP.fin (0 : ℝ) * FP.fin 0)
      (((1 : ℕ) : ℤ) * (((1 : ℕ) : ℤ) - 3)) = _
    have h2 : ((((1 : ℕ) : ℤ) * (((1 : ℕ) : ℤ) - 3) : ℤ) : ℝ) = -2 := by norm_num
    rw [npDiv, if_neg (fun h => by cases h.1), h2]
    simp only [Fin.sum_univ_one, FP.fin_mul]
    rw [FP.fin_div _ (by norm_num)]
    norm_num
  have hproj : ∀ (k : NumKind) (a : RMat n), ∃ k', uComplementaryProjectionB
      ⟨1, .numpy, fun _ _ => .fin 0⟩ (.fin 0) ⟨n, k, FMat.ofReal a⟩
        = .ok ⟨n, k', FMat.ofReal a⟩ := by
    intro k a
    have hz : (FP.fin 0 : FP ℝ).IsZero := rfl
    unfold uComplementaryProjectionB uProjectionB
    rw [if_pos hz]
    refine ⟨k.join .numpy, ?_⟩
    show FSq.zipWith _ _ _ = _
    unfold FSq.zipWith
    have h1 : n ≠ 1 := by omega
    simp only [h1, dite_false, dite_true]
    congr 2
    funext i j
    show FP.fin _ - FP.fin _ = FP.fin _
    rw [FP.fin_sub, sub_zero]
  obtain ⟨k1, h1⟩ := hproj kx (Spec.uMat X)
  obtain ⟨k2, h2⟩ := hproj ky (Spec.uMat Y)
  unfold partialDistanceCovariance
  rw [ex, ey, ez]
  simp only [PyM.pure_bind']
  rw [hcc, PyM.lift_ok_bind, h1, PyM.lift_ok_bind, h2, PyM.lift_ok_bind, uProductB_same hn, ipXY_eq]
  rfl

/-- Hence the full statement of C56 is false. -/
theorem C56_statement_false : ¬ C56_statement := by
  intro h
  obtain ⟨⟨e, he⟩, _⟩ := h stdEnv (npVec ![0, 1, 2, (3 : ℝ)]) (npVec ![0, 1, 2, (3 : ℝ)])
    (npVec ![(0 : ℝ)]) (fun h => by have := h.2; simp [npVec, Arr.shape0] at this)
  rw [C56_length_one_broadcast (n := 4) (by norm_num) (npVec_holds _) (npVec_holds _)
    ⟨by simp [npVec], by simp [npVec]⟩] at he
  cases he

example := C56_mismatch_rejected_partial stdEnv (npVec ![0, 1, 2, (3 : ℝ)])
  (npVec ![0, 1, 2, (3 : ℝ)]) (npVec ![0, (1 : ℝ)])
  (fun h => by have := h.2; simp [npVec, Arr.shape0] at this)
  (by simp [npVec, Arr.shape0]) (by simp [npVec, Arr.shape0]) (by simp [npVec, Arr.shape0])

end Dcor.Props

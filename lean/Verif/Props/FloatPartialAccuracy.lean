/-
C96: how far the partial distance covariance and its permutation test in `float64` are from the exact ones.
-/
import Verif.Proofs.FloatPartialCov
import Verif.Props.FloatPartialRange
import Verif.Props.FloatTestsAccuracy

namespace Dcor.Props

open Dcor

variable {sqrt : ℚ → ℚ} {sum : List ℚ → ℚ} {dot : List (ℚ × ℚ) → ℚ} {n p q r : ℕ}

/-- The observations as real numbers. -/
def realObs (x : Fin n → Fin p → ℚ) (i : Fin n) (k : Fin p) : ℝ := x i k

/-- Number of roundings of a partial distance covariance. -/
def partialOps (n p q r : ℕ) : ℕ := n ^ 2 + 6 * n + 2 * max p (max q r) + 40

/-- Inner products of the residuals, one of them with permuted rows and columns. -/
theorem errR_residuals (h : IsFloat64 sqrt sum dot) (hn : 3 < n) {l J : ℕ} {a b c : Fin n → Fin n → ℚ}
    {P R Q : Fin n → Fin n → ℝ} {A B C κ : ℝ} (ha : ∀ i j, ErrR l (if i = j then 0 else 6 * A) (P i j) (a i j))
    (hb : ∀ i j, ErrR l (if i = j then 0 else 6 * B) (R i j) (b i j))
    (hc : ∀ i j, ErrR l (if i = j then 0 else 6 * C) (Q i j) (c i j)) (hv : 0 < Spec.uInner Q Q)
    (hC : C ≤ κ * Real.sqrt (Spec.uInner Q Q)) (hκ : 1 ≤ 108 * κ ^ 2) (hκ0 : 0 ≤ κ) (hA : 0 ≤ A) (hB : 0 ≤ B)
    (hJ : 3 * l + n ^ 2 + 7 ≤ J) (hsmall : ((1 + uRound) ^ J - 1) * (216 * κ ^ 2) ≤ 1) (π : Equiv.Perm (Fin n)) :
    ErrR J (200000 * A * B * (κ * (1 + 11 * κ)) ^ 2)
      (Spec.uInner (fun i j => Spec.uResidual Q P (π i) (π j)) (Spec.uResidual Q R))
      ((binary64 sqrt sum dot).uProduct (fun i j => (binary64 sqrt sum dot).uComplementaryProjection c a (π i) (π j))
        ((binary64 sqrt sum dot).uComplementaryProjection c b)) := by
  have hx := fun i j => residual_close h hn ha hc hv hC hJ hsmall i j
  have hy := fun i j => residual_close h hn hb hc hv hC hJ hsmall i j
  obtain ⟨g, hg⟩ : ∃ g, g = (1 + uRound) ^ J - 1 := ⟨_, rfl⟩
  rw [← hg] at hx hy hsmall
  have g0 : 0 ≤ g := by rw [hg]; linarith [one_le_up J]
  have key := uProduct_close h hn (P := fun i j => Spec.uResidual Q P (π i) (π j)) (Q := Spec.uResidual Q R)
    (a := fun i j => (binary64 sqrt sum dot).uComplementaryProjection c a (π i) (π j))
    (b := (binary64 sqrt sum dot).uComplementaryProjection c b)
    (fun i j => by have := (hx (π i) (π j)).1; simpa only [π.injective.eq_iff] using this) (fun i j => (hy i j).1)
    (fun i j => by have := (hx (π i) (π j)).2; simpa only [π.injective.eq_iff] using this) (fun i j => (hy i j).2)
  have size := uInner_le hn (P := fun i j => Spec.uResidual Q P (π i) (π j)) (Q := Spec.uResidual Q R)
    (fun i j => by have := (hx (π i) (π j)).1; simpa only [π.injective.eq_iff] using this) (fun i j => (hy i j).1)
  constructor
  · refine size.trans ?_
    have e : 200000 * A * B * (κ * (1 + 11 * κ)) ^ 2 = 200000 * (A * B * (1 + 11 * κ) ^ 2) * κ ^ 2 := by ring
    have w0 : 0 ≤ A * B * (1 + 11 * κ) ^ 2 := by positivity
    rw [e]
    nlinarith [mul_le_mul_of_nonneg_left hκ w0, mul_nonneg w0 (sq_nonneg κ)]
  rw [← hg]
  refine key.trans ?_
  have hG : (1 + uRound) ^ (n ^ 2 + 4) - 1 ≤ g := by
    rw [hg]
    linarith [up_mono (show n ^ 2 + 4 ≤ J by omega)]
  obtain ⟨t, ht⟩ : ∃ t, t = 1 + 11 * κ := ⟨_, rfl⟩
  have t0 : 0 ≤ t := by rw [ht]; positivity
  rw [← ht]
  obtain ⟨s, hs⟩ : ∃ s, s = g * κ ^ 2 := ⟨_, rfl⟩
  have s0 : 0 ≤ s := by rw [hs]; positivity
  have s1 : 216 * s ≤ 1 := by rw [hs]; linarith
  have gs : g ≤ 108 * s := by rw [hs]; nlinarith
  have e1 : g * (1944 * A * κ ^ 2 * t) = 1944 * s * (A * t) := by rw [hs]; ring
  have e2 : g * (1944 * B * κ ^ 2 * t) = 1944 * s * (B * t) := by rw [hs]; ring
  have e3 : g * (200000 * A * B * (κ * t) ^ 2) = 200000 * s * ((A * t) * (B * t)) := by rw [hs]; ring
  rw [e1, e2, e3]
  obtain ⟨u, hu⟩ : ∃ u, u = A * t := ⟨_, rfl⟩
  obtain ⟨v, hv'⟩ : ∃ v, v = B * t := ⟨_, rfl⟩
  have u0 : 0 ≤ u := by rw [hu]; positivity
  have v0 : 0 ≤ v := by rw [hv']; positivity
  have e4 : 6 * A * t = 6 * u := by rw [hu]; ring
  have e5 : 6 * B * t = 6 * v := by rw [hv']; ring
  rw [e4, e5, ← hu, ← hv']
  have b1 : 6 * u + 1944 * s * u ≤ 15 * u := by nlinarith
  have b2 : 6 * v + 1944 * s * v ≤ 15 * v := by nlinarith
  have uv0 : 0 ≤ u * v := mul_nonneg u0 v0
  have p1 : (6 * u + 1944 * s * u) * (6 * v + 1944 * s * v) ≤ 15 * u * (15 * v) :=
    mul_le_mul b1 b2 (by positivity) (by positivity)
  have p2 : 1944 * s * u * (6 * v + 1944 * s * v) ≤ 1944 * s * u * (15 * v) :=
    mul_le_mul_of_nonneg_left b2 (by positivity)
  have p3 : ((1 + uRound) ^ (n ^ 2 + 4) - 1) * (3 * ((6 * u + 1944 * s * u) * (6 * v + 1944 * s * v)))
      ≤ 108 * s * (3 * (15 * u * (15 * v))) :=
    mul_le_mul (hG.trans gs) (by linarith) (by positivity) (by positivity)
  nlinarith [mul_nonneg s0 uv0]

/-- The hypotheses under which the projection is accurate: the distances between observations of `x`, `y`, `z` are at most
`A`, `B`, `C`, and `C` is at most `κ` times the square root of the bias-corrected distance variance of `z`, which is not zero. -/
structure PartialAccurate (x : Fin n → Fin p → ℚ) (y : Fin n → Fin q → ℚ) (z : Fin n → Fin r → ℚ) (A B C κ : ℝ) : Prop where
  size : 3 < n
  x_le : ∀ i j, realDist x i j ≤ A
  y_le : ∀ i j, realDist y i j ≤ B
  z_le : ∀ i j, realDist z i j ≤ C
  var_pos : 0 < Spec.uDcovSqr (realDist z) (realDist z)
  conditioned : C ≤ κ * Real.sqrt (Spec.uDcovSqr (realDist z) (realDist z))
  small : 432 * partialOps n p q r * κ ^ 2 ≤ 2 ^ 53

theorem le_of_uInner {C : ℝ} (hn : 3 < n) {z : Fin n → Fin r → ℚ} (hz : ∀ i j, realDist z i j ≤ C) :
    Spec.uDcovSqr (realDist z) (realDist z) ≤ 108 * C ^ 2 := by
  have hC := ErrR.uProduct (float64_seq.1) hn (errR_uCentered float64_seq.1 hn hz) (errR_uCentered float64_seq.1 hn hz)
  have := (le_abs_self _).trans hC.size
  unfold Spec.uDcovSqr
  linarith

namespace PartialAccurate

variable {x : Fin n → Fin p → ℚ} {y : Fin n → Fin q → ℚ} {z : Fin n → Fin r → ℚ} {A B C κ : ℝ}

theorem kappa_nonneg (H : PartialAccurate x y z A B C κ) : 0 ≤ κ := by
  have hn := H.size
  have C0 : 0 ≤ C := (Spec.distMat_diag one_ne_zero _ ⟨0, by omega⟩).ge.trans (H.z_le ⟨0, by omega⟩ ⟨0, by omega⟩)
  by_contra hneg
  have := mul_neg_of_neg_of_pos (not_le.1 hneg) (Real.sqrt_pos.2 H.var_pos)
  linarith [H.conditioned]

theorem kappa_sq (H : PartialAccurate x y z A B C κ) : 1 ≤ 108 * κ ^ 2 := by
  have hn := H.size
  have C0 : 0 ≤ C := (Spec.distMat_diag one_ne_zero _ ⟨0, by omega⟩).ge.trans (H.z_le ⟨0, by omega⟩ ⟨0, by omega⟩)
  have h1 := le_of_uInner hn H.z_le
  have h2 := pow_le_pow_left₀ C0 H.conditioned 2
  rw [mul_pow, Real.sq_sqrt H.var_pos.le] at h2
  have h3 : 1 * Spec.uDcovSqr (realDist z) (realDist z) ≤ (108 * κ ^ 2) * Spec.uDcovSqr (realDist z) (realDist z) := by linarith
  exact le_of_mul_le_mul_right h3 H.var_pos

theorem ops_le (H : PartialAccurate x y z A B C κ) : partialOps n p q r ≤ 2 ^ 53 := by
  have h1 := H.kappa_sq
  have h2 := H.small
  have h3 : (partialOps n p q r : ℝ) ≤ 2 ^ 53 := by
    nlinarith [mul_le_mul_of_nonneg_left h1 (Nat.cast_nonneg (α := ℝ) (partialOps n p q r))]
  exact_mod_cast h3

/-- The product of the residuals after a permutation of the observations of `x`. -/
theorem product_error (H : PartialAccurate x y z A B C κ) (h : IsFloat64 sqrt sum dot) (π : Equiv.Perm (Fin n)) :
    ErrR (partialOps n p q r - 2) (200000 * A * B * (κ * (1 + 11 * κ)) ^ 2)
      (Spec.uInner (fun i j => Spec.residualMat 1 (realObs z) (realObs x) (π i) (π j))
          (Spec.residualMat 1 (realObs z) (realObs y)))
      ((binary64 sqrt sum dot).uProduct (fun i j => (binary64 sqrt sum dot).uComplementaryProjection
          ((binary64 sqrt sum dot).uDistanceMatrix z) ((binary64 sqrt sum dot).uDistanceMatrix x) (π i) (π j))
        ((binary64 sqrt sum dot).uComplementaryProjection ((binary64 sqrt sum dot).uDistanceMatrix z)
          ((binary64 sqrt sum dot).uDistanceMatrix y))) := by
  have hn := H.size
  have A0 : 0 ≤ A := (Spec.distMat_diag one_ne_zero _ ⟨0, by omega⟩).ge.trans (H.x_le ⟨0, by omega⟩ ⟨0, by omega⟩)
  have B0 : 0 ≤ B := (Spec.distMat_diag one_ne_zero _ ⟨0, by omega⟩).ge.trans (H.y_le ⟨0, by omega⟩ ⟨0, by omega⟩)
  have hl : ∀ {s : ℕ}, s ≤ max p (max q r) →
      distErr s + 2 * n + 6 ≤ distErr (max p (max q r)) + 2 * n + 6 := by
    intro s hs
    unfold distErr
    omega
  refine errR_residuals h hn (l := distErr (max p (max q r)) + 2 * n + 6)
    (fun i j => (errR_uCentered h hn H.x_le i j).mono (hl (le_max_left _ _)) le_rfl)
    (fun i j => (errR_uCentered h hn H.y_le i j).mono (hl ((le_max_left _ _).trans (le_max_right _ _))) le_rfl)
    (fun i j => (errR_uCentered h hn H.z_le i j).mono (hl ((le_max_right _ _).trans (le_max_right _ _))) le_rfl)
    H.var_pos H.conditioned H.kappa_sq H.kappa_nonneg A0 B0 (by unfold partialOps distErr; omega) ?_ π
  have hK : partialOps n p q r - 2 ≤ 2 ^ 53 := (Nat.sub_le _ _).trans H.ops_le
  have h1 := pow_sub_one_le hK
  have h2 : ((partialOps n p q r - 2 : ℕ) : ℝ) ≤ partialOps n p q r := by exact_mod_cast Nat.sub_le _ _
  have h3 : (1 + uRound) ^ (partialOps n p q r - 2) - 1 ≤ 2 * partialOps n p q r / 2 ^ 53 := by
    refine h1.trans ?_
    gcongr
  refine (mul_le_mul_of_nonneg_right h3 (by positivity)).trans ?_
  rw [div_mul_eq_mul_div, div_le_one (by positivity)]
  linarith [H.small]

end PartialAccurate

/-- C96: if no distance between observations of `x`, `y` and `z` is more than `A`, `B` and `C`, and `C` is at most `κ` times the
bias-corrected distance standard deviation of `z`, the partial distance covariance is within
`400000 * (n ** 2 + 6 * n + 2 * max p q r + 40) * A * B * (κ * (1 + 11 * κ)) ** 2 * 2 ** -53` of the exact one. What is missing
is a sample `z` without distance variance, for which nothing can be said (`C96_degenerate`) unless it is constant
(`C96_constant`). -/
theorem C96_covariance_partial (h : IsFloat64 sqrt sum dot) {x : Fin n → Fin p → ℚ} {y : Fin n → Fin q → ℚ}
    {z : Fin n → Fin r → ℚ} {A B C κ : ℝ} (H : PartialAccurate x y z A B C κ) :
    |((binary64 sqrt sum dot).partialCovariance x y z : ℝ) - Spec.partialDcov (realObs x) (realObs y) (realObs z)|
      ≤ 400000 * (n ^ 2 + 6 * n + 2 * max p (max q r) + 40 : ℕ) * A * B * (κ * (1 + 11 * κ)) ^ 2 / 2 ^ 53 := by
  have h1 := ((H.product_error h (Equiv.refl _)).mono (l := partialOps n p q r) (Nat.sub_le _ _) le_rfl).bound H.ops_le
  refine le_trans h1 (le_of_eq ?_)
  unfold partialOps
  ring

/-- Bound for the error of the statistics of the partial distance covariance test. -/
noncomputable def partialErr (n p q r : ℕ) (A B κ : ℝ) : ℝ :=
  400000 * (n ^ 2 + 6 * n + 2 * max p (max q r) + 40 : ℕ) * n * A * B * (κ * (1 + 11 * κ)) ^ 2 / 2 ^ 53

/-- The exact statistic of the partial distance covariance test after a permutation of the residuals of `x`. -/
noncomputable def partialStat (x : Fin n → Fin p → ℚ) (y : Fin n → Fin q → ℚ) (z : Fin n → Fin r → ℚ)
    (π : Equiv.Perm (Fin n)) : ℝ :=
  n * Spec.uInner (fun i j => Spec.residualMat 1 (realObs z) (realObs x) (π i) (π j))
    (Spec.residualMat 1 (realObs z) (realObs y))

theorem partialStat_error (h : IsFloat64 sqrt sum dot) {x : Fin n → Fin p → ℚ} {y : Fin n → Fin q → ℚ}
    {z : Fin n → Fin r → ℚ} {A B C κ : ℝ} (H : PartialAccurate x y z A B C κ) (π : Equiv.Perm (Fin n)) :
    |(((binary64 sqrt sum dot).imul n ((binary64 sqrt sum dot).uProduct
        (fun i j => (binary64 sqrt sum dot).uComplementaryProjection
          ((binary64 sqrt sum dot).uDistanceMatrix z) ((binary64 sqrt sum dot).uDistanceMatrix x) (π i) (π j))
        ((binary64 sqrt sum dot).uComplementaryProjection ((binary64 sqrt sum dot).uDistanceMatrix z)
          ((binary64 sqrt sum dot).uDistanceMatrix y))) : ℚ) : ℝ) - partialStat x y z π| ≤ partialErr n p q r A B κ := by
  have h1 := ((H.product_error h π).imul (z := n)).mono (l := partialOps n p q r) (by unfold partialOps; omega) le_rfl
  refine (h1.bound H.ops_le).trans (le_of_eq ?_)
  unfold partialOps partialErr
  ring

/-- C96: the statistic of `partial_distance_covariance_test` is within `n` times the bound of `C96_covariance_partial` of
the exact one. -/
theorem C96_statistic_partial (h : IsFloat64 sqrt sum dot) {x : Fin n → Fin p → ℚ} {y : Fin n → Fin q → ℚ}
    {z : Fin n → Fin r → ℚ} {A B C κ : ℝ} (H : PartialAccurate x y z A B C κ) (perms : List (Equiv.Perm (Fin n))) :
    |(((binary64 sqrt sum dot).partialTest perms x y z).statistic : ℝ)
      - n * Spec.partialDcov (realObs x) (realObs y) (realObs z)|
      ≤ 400000 * (n ^ 2 + 6 * n + 2 * max p (max q r) + 40 : ℕ) * n * A * B * (κ * (1 + 11 * κ)) ^ 2 / 2 ^ 53 :=
  partialStat_error h H (Equiv.refl _)

open Classical in
/-- C96: the p-value is what one would get with a number of larger statistics that is at least the number of permutations
whose exact statistic is above the observed one by more than twice the error bound, and at most the number of those for
which it is not below by twice the error bound. -/
theorem C96_pvalue_partial (h : IsFloat64 sqrt sum dot) {x : Fin n → Fin p → ℚ} {y : Fin n → Fin q → ℚ}
    {z : Fin n → Fin r → ℚ} {A B C κ : ℝ} (H : PartialAccurate x y z A B C κ) (perms : List (Equiv.Perm (Fin n)))
    (hp : perms.length < 2 ^ 53) :
    ∃ c : ℕ, ((binary64 sqrt sum dot).partialTest perms x y z).pvalue = round64 ((c + 1) / ((perms.length : ℚ) + 1)) ∧
      (perms.countP fun π => decide (partialStat x y z (Equiv.refl _) + 2 * partialErr n p q r A B κ < partialStat x y z π)) ≤ c ∧
      c ≤ perms.countP fun π =>
        decide (partialStat x y z (Equiv.refl _) - 2 * partialErr n p q r A B κ < partialStat x y z π) :=
  pvalue_bracket h perms hp (stat := fun d => (binary64 sqrt sum dot).imul n ((binary64 sqrt sum dot).uProduct d
    ((binary64 sqrt sum dot).uComplementaryProjection ((binary64 sqrt sum dot).uDistanceMatrix z)
      ((binary64 sqrt sum dot).uDistanceMatrix y)))) (partialStat_error h H)

open Classical in
/-- C96: if the exact statistic of no permutation is within twice the error bound of the observed one, the p-value is the
correctly rounded exact one. What is missing are ties: `C96_tied_statistics`. -/
theorem C96_pvalue_exact_partial (h : IsFloat64 sqrt sum dot) {x : Fin n → Fin p → ℚ} {y : Fin n → Fin q → ℚ}
    {z : Fin n → Fin r → ℚ} {A B C κ : ℝ} (H : PartialAccurate x y z A B C κ) (perms : List (Equiv.Perm (Fin n)))
    (hp : perms.length < 2 ^ 53)
    (hsep : ∀ π ∈ perms, 2 * partialErr n p q r A B κ < |partialStat x y z π - partialStat x y z (Equiv.refl _)|) :
    ((binary64 sqrt sum dot).partialTest perms x y z).pvalue = round64 (((perms.countP fun π =>
      decide (partialStat x y z (Equiv.refl _) < partialStat x y z π) : ℕ) + 1) / ((perms.length : ℚ) + 1)) :=
  pvalue_separated h perms hp (stat := fun d => (binary64 sqrt sum dot).imul n ((binary64 sqrt sum dot).uProduct d
    ((binary64 sqrt sum dot).uComplementaryProjection ((binary64 sqrt sum dot).uDistanceMatrix z)
      ((binary64 sqrt sum dot).uDistanceMatrix y)))) (partialStat_error h H) hsep

/-! ### A constant sample `z` -/

theorem realDist_constant {z : Fin n → Fin r → ℚ} (hz : ∀ i j k, z i k = z j k) (i j : Fin n) : realDist z i j = 0 := by
  have e : (fun k => (z j k : ℝ)) = fun k => (z i k : ℝ) := by
    funext k
    rw [hz j i k]
  show Spec.dist 1 (fun k => (z i k : ℝ)) (fun k => (z j k : ℝ)) = 0
  rw [e]
  exact Spec.distMat_diag one_ne_zero (fun i k => (z i k : ℝ)) i

/-- C96: if all observations of `z` are the same, there is nothing to project on, and the partial distance covariance is
within `216 * (n ** 2 + 4 * n + max p q + 27) * A * B * 2 ** -53` of the exact one. -/
theorem C96_constant (h : IsFloat64 sqrt sum dot) (hn : 3 < n) {x : Fin n → Fin p → ℚ} {y : Fin n → Fin q → ℚ}
    {z : Fin n → Fin r → ℚ} {A B : ℝ} (hA : ∀ i j, realDist x i j ≤ A) (hB : ∀ i j, realDist y i j ≤ B)
    (hz : ∀ i j k, z i k = z j k) (hK : n ^ 2 + 4 * n + max p q + 27 ≤ 2 ^ 53) :
    |((binary64 sqrt sum dot).partialCovariance x y z : ℝ) - Spec.partialDcov (realObs x) (realObs y) (realObs z)|
      ≤ 216 * (n ^ 2 + 4 * n + max p q + 27 : ℕ) * A * B / 2 ^ 53 := by
  have hc := errR_uCentered h hn (x := z) (A := 0) fun i j => (realDist_constant hz i j).le
  have zero : ∀ {k : ℕ} {m q : ℝ} {t : ℚ}, m = 0 → ErrR k m q t → q = 0 ∧ t = 0 := by
    intro k m q t hm ht
    subst hm
    have h1 := abs_nonpos_iff.1 ht.size
    have h2 := ht.err
    rw [mul_zero, h1, sub_zero] at h2
    exact ⟨h1, by exact_mod_cast abs_nonpos_iff.1 h2⟩
  have hv := zero (by ring) (ErrR.uProduct h hn hc hc)
  have res : ∀ {s : ℕ} {w : Fin n → Fin s → ℚ} {D : ℝ}, (∀ i j, realDist w i j ≤ D) → ∀ i j,
      ErrR (distErr s + 2 * n + 6 + 1) (if i = j then 0 else 6 * D) (Spec.uCentre (realDist w) i j)
        ((binary64 sqrt sum dot).uComplementaryProjection ((binary64 sqrt sum dot).uDistanceMatrix z)
          ((binary64 sqrt sum dot).uDistanceMatrix w) i j) := by
    intro s w D hD i j
    have e : (binary64 sqrt sum dot).uComplementaryProjection ((binary64 sqrt sum dot).uDistanceMatrix z)
        ((binary64 sqrt sum dot).uDistanceMatrix w) i j = round64 ((binary64 sqrt sum dot).uDistanceMatrix w i j) := by
      unfold Arith.uComplementaryProjection Arith.uProjection
      rw [if_pos]
      · show round64 ((binary64 sqrt sum dot).uDistanceMatrix w i j - (binary64 sqrt sum dot).ofInt 0) = _
        rw [ofInt_binary64.1, sub_zero]
      · unfold Arith.eqZero
        rw [ofInt_binary64.1, hv.2]
        show decide ((0 : ℚ) = 0) = true
        simp
    rw [e]
    exact (errR_uCentered h hn hD i j).round
  have key := ErrR.uProduct h hn (res hA) (res hB)
  have e : Spec.partialDcov (realObs x) (realObs y) (realObs z)
      = Spec.uInner (Spec.uCentre (realDist x)) (Spec.uCentre (realDist y)) := by
    have hz : Spec.uInner (Spec.uMat (realObs z)) (Spec.uMat (realObs z)) = 0 := hv.1
    unfold Spec.partialDcov Spec.uResidual
    rw [if_pos hz, if_pos hz]
    rfl
  rw [e]
  have h3 := (key.mono (l := n ^ 2 + 4 * n + max p q + 27) (by unfold distErr; omega) le_rfl).bound hK
  refine h3.trans (le_of_eq ?_)
  ring

/-! ### Concrete samples -/

theorem nearX_le (i j : Fin 4) : realDist nearX i j ≤ 1 := by
  rw [nearX_dist]; fin_cases i <;> fin_cases j <;> norm_num

theorem nearY_le (i j : Fin 4) : realDist nearY i j ≤ 1 := by
  rw [nearY_dist]; fin_cases i <;> fin_cases j <;> norm_num

theorem nearX_centred : Spec.uCentre (realDist nearX) = ![![0, -2 / 3, 1 / 3, 1 / 3], ![-2 / 3, 0, 1 / 3, 1 / 3],
    ![1 / 3, 1 / 3, 0, -2 / 3], ![1 / 3, 1 / 3, -2 / 3, 0]] := by
  funext i j
  rw [nearX_dist]
  unfold Spec.uCentre
  simp only [Fin.sum_univ_four]
  fin_cases i <;> fin_cases j <;> simp <;> norm_num

theorem nearY_centred : Spec.uCentre (realDist nearY) = ![![0, 1 / 3, -2 / 3, 1 / 3], ![1 / 3, 0, 1 / 3, -2 / 3],
    ![-2 / 3, 1 / 3, 0, 1 / 3], ![1 / 3, -2 / 3, 1 / 3, 0]] := by
  funext i j
  rw [nearY_dist]
  unfold Spec.uCentre
  simp only [Fin.sum_univ_four]
  fin_cases i <;> fin_cases j <;> simp <;> norm_num

theorem nearX_var : Spec.uInner (Spec.uCentre (realDist nearX)) (Spec.uCentre (realDist nearX)) = 2 / 3 := by
  show Spec.uDcovSqr _ _ = _
  rw [Spec.uDcovSqr_eq_uIp, nearX_centred]; unfold uIp; simp [Fin.sum_univ_four]; norm_num

theorem nearY_nearX : Spec.uInner (Spec.uCentre (realDist nearY)) (Spec.uCentre (realDist nearX)) = -1 / 3 := by
  show Spec.uDcovSqr _ _ = _
  rw [Spec.uDcovSqr_eq_uIp, nearX_centred, nearY_centred]; unfold uIp; simp [Fin.sum_univ_four]; norm_num

theorem near_residual : Spec.residualMat 1 (realObs nearX) (realObs nearY)
    = ![![0, 0, -1 / 2, 1 / 2], ![0, 0, 1 / 2, -1 / 2], ![-1 / 2, 1 / 2, 0, 0], ![1 / 2, -1 / 2, 0, 0]] := by
  show Spec.uResidual (Spec.uCentre (realDist nearX)) (Spec.uCentre (realDist nearY)) = _
  unfold Spec.uResidual
  rw [nearX_var, nearY_nearX, if_neg (by norm_num), nearX_centred, nearY_centred]
  funext i j
  fin_cases i <;> fin_cases j <;> simp <;> norm_num

theorem near_accurate : PartialAccurate nearY nearY nearX 1 1 1 2 where
  size := by norm_num
  x_le := nearY_le
  y_le := nearY_le
  z_le := nearX_le
  var_pos := by
    unfold Spec.uDcovSqr
    rw [nearX_var]
    norm_num
  conditioned := by
    unfold Spec.uDcovSqr
    rw [nearX_var]
    have : (1 / 2 : ℝ) ≤ Real.sqrt (2 / 3) := Real.le_sqrt_of_sq_le (by norm_num)
    linarith
  small := by unfold partialOps; norm_num

/-- The statistics 2 of the data and -2 after the exchange of the first two observations are far enough. -/
example (h : IsFloat64 sqrt sum dot) :
    ((binary64 sqrt sum dot).partialTest [Equiv.swap 0 1] nearY nearY nearX).pvalue = 1 / 2 := by
  have e1 : partialStat nearY nearY nearX (Equiv.refl _) = 2 := by
    unfold partialStat
    rw [near_residual]
    unfold Spec.uInner
    simp only [Finset.sum_filter, Fin.sum_univ_four, Equiv.refl_apply]
    simp
    norm_num
  have e2 : partialStat nearY nearY nearX (Equiv.swap 0 1) = -2 := by
    have s0 : Equiv.swap (0 : Fin 4) 1 0 = 1 := by decide
    have s1 : Equiv.swap (0 : Fin 4) 1 1 = 0 := by decide
    have s2 : Equiv.swap (0 : Fin 4) 1 2 = 2 := by decide
    have s3 : Equiv.swap (0 : Fin 4) 1 3 = 3 := by decide
    unfold partialStat
    rw [near_residual]
    unfold Spec.uInner
    simp only [Finset.sum_filter, Fin.sum_univ_four, s0, s1, s2, s3]
    simp
    norm_num
  rw [C96_pvalue_exact_partial h near_accurate [Equiv.swap 0 1] (by norm_num)]
  · rw [List.countP_singleton, e1, e2]
    norm_num
    decide +kernel
  · intro π hπ
    rw [List.mem_singleton.1 hπ, e1, e2]
    unfold partialErr
    norm_num

example (h : IsFloat64 sqrt sum dot) :
    |((binary64 sqrt sum dot).partialCovariance nearX nearY (fun (_ : Fin 4) (_ : Fin 3) => 7) : ℝ)
      - Spec.partialDcov (realObs nearX) (realObs nearY) (realObs fun (_ : Fin 4) (_ : Fin 3) => 7)| ≤ 1 / 10 ^ 11 := by
  refine (C96_constant h (by norm_num) nearX_le nearY_le (fun _ _ _ => rfl) (by norm_num)).trans ?_
  norm_num

/-! ### A sample `z` without distance variance -/

/-- Five observations. -/
def flatX : Fin 5 → Fin 1 → ℚ := fun i _ => (![2, 0, 2, 0, 0] : Fin 5 → ℚ) i

@[inherit_doc flatX] def flatY : Fin 5 → Fin 1 → ℚ := fun i _ => (![2, 0, 1, 0, 2] : Fin 5 → ℚ) i

/-- Five observations without bias-corrected distance variance. -/
def flatZ : Fin 5 → Fin 1 → ℚ := fun i _ => (![0, 2, 2, 2, 4] : Fin 5 → ℚ) i

theorem flat_numpy : 1 / 40 < (binary64 sqrt64 numpySum seqDot64).partialCovariance flatX flatY flatZ ∧
    1 / 60 < (binary64 sqrt64 numpySum seqDot64).partialCorrelation flatX flatY flatZ := by
  decide +kernel

theorem flat_seq : 1 / 40 < (binary64 sqrt64 seqSum64 seqDot64).partialCovariance flatX flatY flatZ ∧
    1 / 60 < (binary64 sqrt64 seqSum64 seqDot64).partialCorrelation flatX flatY flatZ := by
  decide +kernel

theorem flatX_dist : realDist flatX = ![![0, 2, 0, 2, 2], ![2, 0, 2, 0, 0], ![0, 2, 0, 2, 2], ![2, 0, 2, 0, 0],
    ![2, 0, 2, 0, 0]] := by
  funext i j
  unfold realDist
  rw [distMat_one]
  fin_cases i <;> fin_cases j <;> simp [flatX]

theorem flatY_dist : realDist flatY = ![![0, 2, 1, 2, 0], ![2, 0, 1, 0, 2], ![1, 1, 0, 1, 1], ![2, 0, 1, 0, 2],
    ![0, 2, 1, 2, 0]] := by
  funext i j
  unfold realDist
  rw [distMat_one]
  fin_cases i <;> fin_cases j <;> simp [flatY] <;> norm_num

theorem flatZ_dist : realDist flatZ = ![![0, 2, 2, 2, 4], ![2, 0, 0, 0, 2], ![2, 0, 0, 0, 2], ![2, 0, 0, 0, 2],
    ![4, 2, 2, 2, 0]] := by
  funext i j
  unfold realDist
  rw [distMat_one]
  fin_cases i <;> fin_cases j <;> simp [flatZ] <;> norm_num

theorem flatZ_centred : Spec.uCentre (realDist flatZ) = fun _ _ => 0 := by
  funext i j
  rw [flatZ_dist]
  unfold Spec.uCentre
  simp only [Fin.sum_univ_five]
  fin_cases i <;> fin_cases j <;> simp <;> norm_num

theorem flat_product : Spec.uInner (Spec.uCentre (realDist flatX)) (Spec.uCentre (realDist flatY)) = 0 := by
  rw [flatX_dist, flatY_dist]
  unfold Spec.uInner Spec.uCentre
  simp only [Finset.sum_filter, Fin.sum_univ_five]
  simp
  norm_num

/-- C96: without distance variance of `z` the error is not small: the U-centred distance matrix of `0, 2, 2, 2, 4` is zero, so that
the partial distance covariance and correlation of `2, 0, 2, 0, 0` and `2, 0, 1, 0, 2` with respect to it are zero. In `float64`
the matrix consists of rounding errors, and the projection on it makes the covariance more than 1 / 40 and the correlation
more than 1 / 60, with sums from left to right and with the pairwise sums of NumPy. -/
theorem C96_degenerate :
    Spec.partialDcov (realObs flatX) (realObs flatY) (realObs flatZ) = 0 ∧
    Spec.partialDcor (realObs flatX) (realObs flatY) (realObs flatZ) = 0 ∧
    1 / 40 < (binary64 sqrt64 numpySum seqDot64).partialCovariance flatX flatY flatZ ∧
    1 / 60 < (binary64 sqrt64 numpySum seqDot64).partialCorrelation flatX flatY flatZ ∧
    1 / 40 < (binary64 sqrt64 seqSum64 seqDot64).partialCovariance flatX flatY flatZ ∧
    1 / 60 < (binary64 sqrt64 seqSum64 seqDot64).partialCorrelation flatX flatY flatZ := by
  have e : Spec.partialDcov (realObs flatX) (realObs flatY) (realObs flatZ) = 0 := by
    have hz : Spec.uInner (Spec.uMat (realObs flatZ)) (Spec.uMat (realObs flatZ)) = 0 := by
      show Spec.uInner (Spec.uCentre (realDist flatZ)) (Spec.uCentre (realDist flatZ)) = 0
      rw [flatZ_centred]
      unfold Spec.uInner
      simp
    unfold Spec.partialDcov Spec.uResidual
    rw [if_pos hz, if_pos hz]
    exact flat_product
  refine ⟨e, ?_, flat_numpy.1, flat_numpy.2, flat_seq.1, flat_seq.2⟩
  unfold Spec.partialDcor
  rw [e]
  simp [Spec.ratio]

/-! ### Ties -/

theorem uCentre_fixed {a : Fin n → Fin n → ℝ} {π : Equiv.Perm (Fin n)} (ha : ∀ i j, a (π i) (π j) = a i j) (i j : Fin n) :
    Spec.uCentre a (π i) (π j) = Spec.uCentre a i j := by
  have r : ∀ i, ∑ k, a (π i) k = ∑ k, a i k := fun i => by
    rw [← Equiv.sum_comp π]
    exact Finset.sum_congr rfl fun k _ => ha i k
  have c : ∀ j, ∑ k, a k (π j) = ∑ k, a k j := fun j => by
    rw [← Equiv.sum_comp π]
    exact Finset.sum_congr rfl fun k _ => ha k j
  unfold Spec.uCentre
  rw [r, c, ha]
  simp only [π.injective.eq_iff]

/-- A permutation of the observations of `x` which changes neither `y` nor `z` does not change the statistic. -/
theorem partialStat_tied (x : Fin n → Fin p → ℚ) {y : Fin n → Fin q → ℚ} {z : Fin n → Fin r → ℚ} {π : Equiv.Perm (Fin n)}
    (hy : ∀ i, y (π i) = y i) (hz : ∀ i, z (π i) = z i) :
    partialStat x y z π = partialStat x y z (Equiv.refl _) := by
  have dy : ∀ i j, realDist y (π i) (π j) = realDist y i j := fun i j => by
    unfold realDist Spec.distMat
    simp only [hy]
  have dz : ∀ i j, realDist z (π i) (π j) = realDist z i j := fun i j => by
    unfold realDist Spec.distMat
    simp only [hz]
  have res : ∀ i j, Spec.residualMat 1 (realObs z) (realObs y) (π i) (π j)
      = Spec.residualMat 1 (realObs z) (realObs y) i j := by
    intro i j
    show Spec.uResidual (Spec.uCentre (realDist z)) (Spec.uCentre (realDist y)) (π i) (π j)
      = Spec.uResidual (Spec.uCentre (realDist z)) (Spec.uCentre (realDist y)) i j
    unfold Spec.uResidual
    split_ifs
    · exact uCentre_fixed dy i j
    · simp only [uCentre_fixed dy, uCentre_fixed dz]
  unfold partialStat Spec.uInner
  congr 2
  simp only [Finset.sum_filter, Equiv.refl_apply]
  rw [← Equiv.sum_comp π fun i => ∑ j, if j ≠ i then Spec.residualMat 1 (realObs z) (realObs x) i j
    * Spec.residualMat 1 (realObs z) (realObs y) i j else 0]
  refine Finset.sum_congr rfl fun i _ => ?_
  rw [← Equiv.sum_comp π fun j => if j ≠ π i then Spec.residualMat 1 (realObs z) (realObs x) (π i) j
    * Spec.residualMat 1 (realObs z) (realObs y) (π i) j else 0]
  refine Finset.sum_congr rfl fun j _ => ?_
  rw [res]
  simp only [ne_eq, π.injective.eq_iff]

/-- Five observations. -/
def evenX : Fin 5 → Fin 1 → ℚ := fun i _ => (![5, 2, 3, 7, 1] : Fin 5 → ℚ) i

@[inherit_doc evenX] def evenY : Fin 5 → Fin 1 → ℚ := fun i _ => (![0, 0, 1, 1, 0] : Fin 5 → ℚ) i

@[inherit_doc evenX] def evenZ : Fin 5 → Fin 1 → ℚ := fun i _ => (![0, 0, 1, 2, 2] : Fin 5 → ℚ) i

theorem even_pvalue :
    ((binary64 sqrt64 numpySum seqDot64).partialTest [Equiv.swap 0 1] evenX evenY evenZ).pvalue = 1 ∧
    ((binary64 sqrt64 seqSum64 seqDot64).partialTest [Equiv.swap 0 1] evenX evenY evenZ).pvalue = 1 := by
  decide +kernel

open Classical in
/-- C96: ties are counted as larger here too: the first two observations are the same in `y` and in `z`, so that their exchange in
`x` changes nothing and the p-value should be `1 / (m + 1)`, but it is 1, with sums from left to right and with the pairwise sums
of NumPy. -/
theorem C96_tied_statistics (m : ℕ) (hm : m < 2 ^ 53) :
    (∀ π ∈ List.replicate m (Equiv.swap 0 1), partialStat evenX evenY evenZ π = partialStat evenX evenY evenZ (Equiv.refl _)) ∧
    ((List.replicate m (Equiv.swap 0 1)).countP (fun π =>
      decide (partialStat evenX evenY evenZ (Equiv.refl _) < partialStat evenX evenY evenZ π)) + 1 : ℚ)
      / ((List.replicate m (Equiv.swap (0 : Fin 5) 1)).length + 1) = 1 / (m + 1) ∧
    ((binary64 sqrt64 numpySum seqDot64).partialTest (List.replicate m (Equiv.swap 0 1)) evenX evenY evenZ).pvalue = 1 ∧
    ((binary64 sqrt64 seqSum64 seqDot64).partialTest (List.replicate m (Equiv.swap 0 1)) evenX evenY evenZ).pvalue = 1 := by
  have key : partialStat evenX evenY evenZ (Equiv.swap 0 1) = partialStat evenX evenY evenZ (Equiv.refl _) :=
    partialStat_tied evenX (by decide +kernel) (by decide +kernel)
  have rep : ∀ {sum : List ℚ → ℚ} (_ : IsFloat64 sqrt64 sum seqDot64),
      ((binary64 sqrt64 sum seqDot64).partialTest [Equiv.swap 0 1] evenX evenY evenZ).pvalue = 1 →
      ((binary64 sqrt64 sum seqDot64).partialTest (List.replicate m (Equiv.swap 0 1)) evenX evenY evenZ).pvalue = 1 := by
    intro sum h h1
    unfold Arith.partialTest at h1 ⊢
    exact pvalue_replicate h h1 m hm
  refine ⟨?_, ?_, rep float64_numpy even_pvalue.1, rep float64_seq.1 even_pvalue.2⟩
  · intro π hπ
    rw [List.eq_of_mem_replicate hπ]
    exact key
  · rw [List.countP_replicate, key, List.length_replicate]
    simp

end Dcor.Props

/-
Properties C125 and C126: what `partial_distance_covariance_test` permutes, and the partial statistics of four observations.
-/
import Verif.Proofs.Exchange
import Verif.Proofs.PermVariance
import Verif.Proofs.TestInvariance
import Verif.Props.Resampling

namespace Dcor.Props

open Finset

variable {env : Env} {n p q r B : ℕ} {α : ℝ} {x y z : Arr} {S : Type} {rng : Rng S} {rs : RandomLike S} {nJobs : Option ℤ}

private theorem uInner_reorder_both (σ : Equiv.Perm (Fin n)) (a b : RMat n) (ha : ∀ i, a i i = 0) :
    Spec.uInner (Spec.reorder σ a) (Spec.reorder σ b) = Spec.uInner a b := by
  rw [Spec.uInner_eq_sum _ _ fun i => ha (σ i), Spec.uInner_eq_sum _ _ ha]
  unfold uIp
  congr 1
  exact Spec.sum_reorder σ fun i j => a i j * b i j

private theorem residual_reorder (σ : Equiv.Perm (Fin n)) (Z : Fin n → Fin r → ℝ) (X : Fin n → Fin p → ℝ) :
    Spec.residualMat α (fun i => Z (σ i)) (fun i => X (σ i)) = Spec.reorder σ (Spec.residualMat α Z X) := by
  unfold Spec.residualMat
  rw [Spec.distMat_reorder, Spec.distMat_reorder, Spec.uCentre_reorder, Spec.uCentre_reorder]
  unfold Spec.uResidual
  rw [uInner_reorder_both _ _ _ (Spec.uCentre_diag _), uInner_reorder_both _ _ _ (Spec.uCentre_diag _)]
  split_ifs <;> rfl

/-! ### C125 -/

/-- C125, what the code does: the statistics compared with the observed one are those of the residuals of the permuted `x` given
`z` permuted in the same way, and of the residuals of `y` given `z` in the order of the arguments. -/
theorem C125_permutes_x_and_z {X : Fin n → Fin p → ℝ} {Y : Fin n → Fin q → ℝ} {Z : Fin n → Fin r → ℝ}
    (h : PartialTestCall x y z α X Y Z) (hj : nJobs ≠ some 0) (σ : Fin B → Equiv.Perm (Fin n)) :
    ∃ (t : ℕ → FP ℝ) (T : ℝ) (s : ℕ),
      (partialDistanceCovarianceTest env (Rng.replay σ) x y z B α (.gen 0) nJobs).out
        = .ok (⟨Spec.permPvalue (.fin T) t B, .fin T⟩, s) ∧
      T = n * Spec.uInner (Spec.residualMat α Z X) (Spec.residualMat α Z Y) ∧
      ∀ i : Fin B, t i = .fin (n * Spec.uInner
        (Spec.residualMat α (fun k => Z (σ i k)) (fun k => X (σ i k))) (Spec.residualMat α Z Y)) := by
  refine ⟨_, _, _, congrArg PyM.out (partialDistanceCovarianceTest_ok (env := env) h hj B), rfl, fun i => ?_⟩
  rw [show randomStateInit (Rng.replay σ) (.gen 0) = 0 from rfl, permAt_replay, residual_reorder]
  rfl

/-- C125, what holds: if the permutations do not change the distances within `z` (for instance if `z` is constant), the p-value
counts the statistics that the test returns for the permuted `x`. -/
theorem C125_pvalue_partial {X : Fin n → Fin p → ℝ} {Y : Fin n → Fin q → ℝ} {Z : Fin n → Fin r → ℝ}
    (h : PartialTestCall x y z α X Y Z) (hj : nJobs ≠ some 0) (σ : Fin B → Equiv.Perm (Fin n))
    (hσ : ∀ i k l, Spec.dist α (Z (σ i k)) (Z (σ i l)) = Spec.dist α (Z k) (Z l)) :
    ∃ (t : ℕ → FP ℝ) (T : FP ℝ) (s : ℕ),
      (partialDistanceCovarianceTest env (Rng.replay σ) x y z B α (.gen 0) nJobs).out = .ok (⟨Spec.permPvalue T t B, T⟩, s) ∧
      ∀ (i : Fin B) (x' : Arr), PartialTestCall x' y z α (fun k => X (σ i k)) Y Z →
        ∀ {R : Type} (rng : Rng R) (rs : RandomLike R) (C : ℕ), ∃ v s',
          (partialDistanceCovarianceTest env rng x' y z C α rs nJobs).out = .ok (⟨v, t i⟩, s') := by
  obtain ⟨t, T, s, e, -, ht⟩ := C125_permutes_x_and_z (env := env) h hj σ
  refine ⟨t, _, s, e, fun i x' h' R rng rs C => ?_⟩
  have k : Spec.residualMat α (fun k => Z (σ i k)) (fun k => X (σ i k)) = Spec.residualMat α Z fun k => X (σ i k) := by
    unfold Spec.residualMat
    rw [show (Spec.distMat α fun k => Z (σ i k)) = Spec.distMat α Z from funext fun a => funext fun b => hσ i a b]
  rw [ht, k, congrArg PyM.out (partialDistanceCovarianceTest_ok (env := env) (rng := rng) (rs := rs) h' hj C)]
  exact ⟨_, _, rfl⟩

/-! ### C126 -/

/-- The three sums of opposite distances of four observations are equal, as for equal observations or for the corners of a
regular tetrahedron. This is the case in which the bias-corrected distance variance is zero. -/
def OppositeSumsEqual (α : ℝ) (Z : Fin 4 → Fin r → ℝ) : Prop :=
  Spec.dist α (Z 0) (Z 1) + Spec.dist α (Z 2) (Z 3) = Spec.dist α (Z 0) (Z 2) + Spec.dist α (Z 1) (Z 3) ∧
  Spec.dist α (Z 0) (Z 2) + Spec.dist α (Z 1) (Z 3) = Spec.dist α (Z 0) (Z 3) + Spec.dist α (Z 1) (Z 2)

private theorem centred_four {a : RMat 4} (ha : Spec.Centred a) :
    a 2 3 = a 0 1 ∧ a 1 3 = a 0 2 ∧ a 1 2 = a 0 3 ∧ a 0 3 = -a 0 1 - a 0 2 := by
  have h0 := ha.row 0
  have h1 := ha.row 1
  have h2 := ha.row 2
  have h3 := ha.row 3
  simp only [Fin.sum_univ_four, ha.diag] at h0 h1 h2 h3
  rw [ha.symm 1 0] at h1
  rw [ha.symm 2 0, ha.symm 2 1] at h2
  rw [ha.symm 3 0, ha.symm 3 1, ha.symm 3 2] at h3
  refine ⟨?_, ?_, ?_, ?_⟩ <;> linarith

private theorem uInner_four {a b : RMat 4} (ha : Spec.Centred a) (hb : Spec.Centred b) :
    Spec.uInner a b = a 0 1 * b 0 1 + a 0 2 * b 0 2 + (a 0 1 + a 0 2) * (b 0 1 + b 0 2) := by
  obtain ⟨a1, a2, a3, a4⟩ := centred_four ha
  obtain ⟨b1, b2, b3, b4⟩ := centred_four hb
  rw [Spec.uInner_eq_sum _ _ ha.diag]
  unfold uIp
  simp only [Fin.sum_univ_four, ha.diag, ha.symm 1 0, ha.symm 2 0, ha.symm 2 1, ha.symm 3 0, ha.symm 3 1, ha.symm 3 2,
    hb.symm 1 0, hb.symm 2 0, hb.symm 2 1, hb.symm 3 0, hb.symm 3 1, hb.symm 3 2, a1, a2, a3, a4, b1, b2, b3, b4]
  push_cast
  ring

private theorem collinear_four {a b c : RMat 4} (ha : Spec.Centred a) (hb : Spec.Centred b) (hc : Spec.Centred c)
    (h0 : Spec.uInner c c ≠ 0) (hac : Spec.uInner a c = 0) (hbc : Spec.uInner b c = 0) :
    Spec.uInner a b ^ 2 = Spec.uInner a a * Spec.uInner b b := by
  rw [uInner_four ha hc] at hac
  rw [uInner_four hb hc] at hbc
  rw [uInner_four hc hc] at h0
  rw [uInner_four ha hb, uInner_four ha ha, uInner_four hb hb]
  have d : a 0 1 * b 0 2 - a 0 2 * b 0 1 = 0 := by
    by_contra hd
    have e1 : (a 0 1 * b 0 2 - a 0 2 * b 0 1) * (2 * c 0 1 + c 0 2) = 0 := by linear_combination b 0 2 * hac - a 0 2 * hbc
    have e2 : (a 0 1 * b 0 2 - a 0 2 * b 0 1) * (c 0 1 + 2 * c 0 2) = 0 := by linear_combination a 0 1 * hbc - b 0 1 * hac
    have f1 := (mul_eq_zero.1 e1).resolve_left hd
    have f2 := (mul_eq_zero.1 e2).resolve_left hd
    have g1 : c 0 1 = 0 := by linarith
    have g2 : c 0 2 = 0 := by linarith
    exact h0 (by rw [g1, g2]; ring)
  linear_combination (-3 * (a 0 1 * b 0 2 - a 0 2 * b 0 1)) * d

private theorem centred_dist {X : Fin 4 → Fin p → ℝ} (hα : α ≠ 0) : Spec.Centred (Spec.uCentre (Spec.distMat α X)) :=
  Spec.uCentre_centred (by norm_num) (Spec.distMat_symm _ _) (Spec.distMat_diag hα X)

private theorem uCentre_four (Z : Fin 4 → Fin r → ℝ) (hα : α ≠ 0) :
    Spec.uCentre (Spec.distMat α Z) 0 1 = (2 * (Spec.dist α (Z 0) (Z 1) + Spec.dist α (Z 2) (Z 3))
      - (Spec.dist α (Z 0) (Z 2) + Spec.dist α (Z 1) (Z 3)) - (Spec.dist α (Z 0) (Z 3) + Spec.dist α (Z 1) (Z 2))) / 6 ∧
    Spec.uCentre (Spec.distMat α Z) 0 2 = (2 * (Spec.dist α (Z 0) (Z 2) + Spec.dist α (Z 1) (Z 3))
      - (Spec.dist α (Z 0) (Z 1) + Spec.dist α (Z 2) (Z 3)) - (Spec.dist α (Z 0) (Z 3) + Spec.dist α (Z 1) (Z 2))) / 6 := by
  have s := Spec.distMat_symm α Z
  have d := Spec.distMat_diag hα Z
  have n1 : (0 : Fin 4) ≠ 1 := by decide
  have n2 : (0 : Fin 4) ≠ 2 := by decide
  simp only [Spec.uCentre, Fin.sum_univ_four, d, s 1 0, s 2 0, s 2 1, s 3 0, s 3 1, s 3 2, if_neg n1, if_neg n2]
  simp only [Spec.distMat]
  push_cast
  constructor <;> ring

private theorem variance_four {Z : Fin 4 → Fin r → ℝ} (hα : α ≠ 0) (hZ : ¬ OppositeSumsEqual α Z) :
    Spec.uInner (Spec.uCentre (Spec.distMat α Z)) (Spec.uCentre (Spec.distMat α Z)) ≠ 0 := by
  intro h
  rw [uInner_four (centred_dist hα) (centred_dist hα)] at h
  have zero (u v : ℝ) (h : u * u + v * v + (u + v) * (u + v) = 0) : u = 0 ∧ v = 0 := by
    have := mul_self_nonneg u
    have := mul_self_nonneg v
    have := mul_self_nonneg (u + v)
    exact ⟨mul_self_eq_zero.1 (by linarith), mul_self_eq_zero.1 (by linarith)⟩
  obtain ⟨h1, h2⟩ := zero _ _ h
  rw [(uCentre_four Z hα).1] at h1
  rw [(uCentre_four Z hα).2] at h2
  exact hZ ⟨by linarith, by linarith⟩

private theorem residuals_four {X : Fin 4 → Fin p → ℝ} {Y : Fin 4 → Fin q → ℝ} {Z : Fin 4 → Fin r → ℝ} (hα : α ≠ 0)
    (hZ : ¬ OppositeSumsEqual α Z) :
    Spec.uInner (Spec.residualMat α Z X) (Spec.residualMat α Z Y) ^ 2
      = Spec.uInner (Spec.residualMat α Z X) (Spec.residualMat α Z X)
        * Spec.uInner (Spec.residualMat α Z Y) (Spec.residualMat α Z Y) := by
  have h0 := variance_four hα hZ
  have orth {s : ℕ} (W : Fin 4 → Fin s → ℝ) : Spec.uInner (Spec.residualMat α Z W) (Spec.uCentre (Spec.distMat α Z)) = 0 := by
    have c : Spec.Centred (Spec.residualMat α Z W) := Spec.uResidual_centred (centred_dist hα) (centred_dist hα)
    rw [uInner_four c (centred_dist hα)]
    unfold Spec.residualMat Spec.uResidual
    rw [if_neg h0]
    have e1 := uInner_four (centred_dist (X := W) hα) (centred_dist (X := Z) hα)
    have e2 := uInner_four (centred_dist (X := Z) hα) (centred_dist (X := Z) hα)
    generalize Spec.uInner (Spec.uCentre (Spec.distMat α W)) (Spec.uCentre (Spec.distMat α Z)) = u at *
    generalize Spec.uInner (Spec.uCentre (Spec.distMat α Z)) (Spec.uCentre (Spec.distMat α Z)) = v at *
    have e3 : u / v * v = u := div_mul_cancel₀ _ h0
    linear_combination (u / v) * e2 - e1 - e3
  exact collinear_four (Spec.uResidual_centred (centred_dist hα) (centred_dist hα))
    (Spec.uResidual_centred (centred_dist hα) (centred_dist hα)) (centred_dist hα) h0 (orth X) (orth Y)

/-- C126: `partial_distance_correlation` of four observations is -1, 0 or 1, whatever `x` and `y` are. -/
theorem C126_correlation {X : Fin 4 → Fin p → ℝ} {Y : Fin 4 → Fin q → ℝ} {Z : Fin 4 → Fin r → ℝ} (hx : Holds x.data 4 p X)
    (hy : Holds y.data 4 q Y) (hz : Holds z.data 4 r Z) (hZ : ¬ OppositeSumsEqual 1 Z) :
    ∃ v : ℝ, (partialDistanceCorrelation env x y z).out = .ok (.fin v) ∧ (v = -1 ∨ v = 0 ∨ v = 1) := by
  refine ⟨_, congrArg PyM.out (partialDistanceCorrelation_ok env (by norm_num) hx hy hz), ?_⟩
  have k := residuals_four (X := X) (Y := Y) one_ne_zero hZ
  unfold Spec.partialDcor Spec.ratio
  split_ifs with h
  · exact Or.inr (Or.inl rfl)
  have e : Spec.partialDcov X X Z * Spec.partialDcov Y Y Z = Spec.partialDcov X Y Z ^ 2 := k.symm
  rw [e] at h ⊢
  have h' : Spec.partialDcov X Y Z ≠ 0 := fun e => h (by rw [e]; ring)
  rw [abs_of_nonneg (sq_nonneg _), Real.sqrt_sq_eq_abs]
  rcases lt_or_gt_of_ne h' with l | l
  · rw [abs_of_neg l, div_neg, div_self h']
    exact Or.inl rfl
  · rw [abs_of_pos l, div_self h']
    exact Or.inr (Or.inr rfl)

/-- C126: if the statistic of `partial_distance_covariance_test` with four observations is positive, then the p-value is the
smallest possible one, for all permutations. -/
theorem C126_test {X : Fin 4 → Fin p → ℝ} {Y : Fin 4 → Fin q → ℝ} {Z : Fin 4 → Fin r → ℝ}
    (h : PartialTestCall x y z α X Y Z) (hj : nJobs ≠ some 0) (hα : α ≠ 0) (hZ : ¬ OppositeSumsEqual α Z) {v T : ℝ} {s : S}
    (e : (partialDistanceCovarianceTest env rng x y z B α rs nJobs).out = .ok (⟨v, .fin T⟩, s)) (hT : 0 < T) :
    v = 1 / ((B : ℝ) + 1) := by
  rw [congrArg PyM.out (partialDistanceCovarianceTest_ok (env := env) (rng := rng) (rs := rs) h hj B)] at e
  simp only [Except.ok.injEq, Prod.mk.injEq, HypothesisTest.mk.injEq, FP.fin.injEq] at e
  obtain ⟨⟨rfl, rfl⟩, -⟩ := e
  refine Spec.permPvalue_min fun i _ => ?_
  rw [FP.lt_fin, not_lt]
  refine mul_le_mul_of_nonneg_left ?_ (Nat.cast_nonneg _)
  have hp : 0 < Spec.uInner (Spec.residualMat α Z X) (Spec.residualMat α Z Y) := by
    push_cast at hT
    linarith
  have k := residuals_four (X := X) (Y := Y) hα hZ
  obtain ⟨π, hπ⟩ : ∃ π, π = permAt rng 4 (randomStateInit rng rs) i := ⟨_, rfl⟩
  have c := uIp_cauchy (by norm_num) (Spec.reorder π (Spec.residualMat α Z X)) (Spec.residualMat α Z Y)
  have d : ∀ i, Spec.reorder π (Spec.residualMat α Z X) i i = 0 := fun i => residualMat_diag Z X (π i)
  rw [← Spec.uInner_eq_sum _ _ d, ← Spec.uInner_eq_sum _ _ d,
    ← Spec.uInner_eq_sum _ _ (residualMat_diag Z Y), uInner_reorder_both _ _ _ (residualMat_diag Z X), ← k] at c
  rw [← hπ]
  exact (abs_le_of_sq_le_sq' c hp.le).2

/-! ### A sample that shows the difference -/

/-- The corners of a rectangle with sides 3 and 4, in two orders, and a sample that tells apart two pairs of them. -/
def rectX : Fin 4 → Fin 2 → ℝ := ![![0, 0], ![3, 4], ![0, 4], ![3, 0]]
@[inherit_doc rectX] def rectY : Fin 4 → Fin 2 → ℝ := ![![0, 0], ![3, 4], ![3, 0], ![0, 4]]
@[inherit_doc rectX] def rectZ : Fin 4 → Fin 1 → ℝ := ![![0], ![1], ![1], ![0]]

private theorem plane (a b c d : ℝ) : Spec.dist 1 ![a, b] ![c, d] = √((a - c) ^ 2 + (b - d) ^ 2) := by
  simp [Spec.dist, Fin.sum_univ_two]

private theorem line (a b : ℝ) : Spec.dist 1 ![a] ![b] = |a - b| := by
  simp [Spec.dist, Real.sqrt_sq_eq_abs]

private theorem rect_roots : √(9 : ℝ) = 3 ∧ √(16 : ℝ) = 4 ∧ √(25 : ℝ) = 5 := by
  have h3 := Real.sqrt_sq (show (0 : ℝ) ≤ 3 by norm_num)
  have h4 := Real.sqrt_sq (show (0 : ℝ) ≤ 4 by norm_num)
  have h5 := Real.sqrt_sq (show (0 : ℝ) ≤ 5 by norm_num)
  norm_num at h3 h4 h5
  exact ⟨h3, h4, h5⟩

theorem rectZ_sums : ¬ OppositeSumsEqual 1 rectZ := by
  intro h
  have z0 : rectZ 0 = ![0] := rfl
  have z1 : rectZ 1 = ![1] := rfl
  have z2 : rectZ 2 = ![1] := rfl
  have z3 : rectZ 3 = ![0] := rfl
  have h2 := h.2
  rw [z0, z1, z2, z3] at h2
  simp only [line] at h2
  norm_num at h2

private theorem rect_entries :
    (Spec.uCentre (Spec.distMat 1 rectX) 0 1 = 1 ∧ Spec.uCentre (Spec.distMat 1 rectX) 0 2 = 0) ∧
    (Spec.uCentre (Spec.distMat 1 rectY) 0 1 = 1 ∧ Spec.uCentre (Spec.distMat 1 rectY) 0 2 = -1) ∧
    (Spec.uCentre (Spec.distMat 1 rectZ) 0 1 = 1 / 3 ∧ Spec.uCentre (Spec.distMat 1 rectZ) 0 2 = 1 / 3) := by
  obtain ⟨r3, r4, r5⟩ := rect_roots
  simp only [uCentre_four _ one_ne_zero]
  have x0 : rectX 0 = ![0, 0] := rfl
  have x1 : rectX 1 = ![3, 4] := rfl
  have x2 : rectX 2 = ![0, 4] := rfl
  have x3 : rectX 3 = ![3, 0] := rfl
  have y0 : rectY 0 = ![0, 0] := rfl
  have y1 : rectY 1 = ![3, 4] := rfl
  have y2 : rectY 2 = ![3, 0] := rfl
  have y3 : rectY 3 = ![0, 4] := rfl
  have z0 : rectZ 0 = ![0] := rfl
  have z1 : rectZ 1 = ![1] := rfl
  have z2 : rectZ 2 = ![1] := rfl
  have z3 : rectZ 3 = ![0] := rfl
  rw [x0, x1, x2, x3, y0, y1, y2, y3, z0, z1, z2, z3]
  simp only [plane, line]
  norm_num [r3, r4, r5]

private theorem rect_inner :
    Spec.uInner (Spec.residualMat 1 rectZ rectX) (Spec.residualMat 1 rectZ rectY) = 1 ∧
    Spec.uInner (Spec.residualMat 1 rectZ rectY) (Spec.residualMat 1 rectZ rectY) = 2 := by
  have c {s t : ℕ} (U : Fin 4 → Fin s → ℝ) (V : Fin 4 → Fin t → ℝ) : Spec.Centred (Spec.residualMat 1 U V) :=
    Spec.uResidual_centred (centred_dist one_ne_zero) (centred_dist one_ne_zero)
  rw [uInner_four (c _ _) (c _ _), uInner_four (c _ _) (c _ _)]
  obtain ⟨⟨x1, x2⟩, ⟨y1, y2⟩, ⟨z1, z2⟩⟩ := rect_entries
  have c' {s : ℕ} (U : Fin 4 → Fin s → ℝ) : Spec.Centred (Spec.uCentre (Spec.distMat 1 U)) := centred_dist one_ne_zero
  unfold Spec.residualMat Spec.uResidual
  rw [if_neg (variance_four one_ne_zero rectZ_sums), if_neg (variance_four one_ne_zero rectZ_sums),
    uInner_four (c' _) (c' _), uInner_four (c' _) (c' _), uInner_four (c' _) (c' _), x1, x2, y1, y2, z1, z2]
  norm_num

/-- C125, refuted: the p-value is not the one of the test that permutes `x`. There is a sample and a permutation such that the
test with this permutation returns `1 / 2`, as if the permuted `x` gave a statistic that is not larger, although the test
returns twice the statistic for the permuted `x`. -/
theorem C125_permuted_sample_fails (env : Env) : ∃ (X Y : Fin 4 → Fin 2 → ℝ) (Z : Fin 4 → Fin 1 → ℝ) (σ : Equiv.Perm (Fin 4)),
    (∃ s, (partialDistanceCovarianceTest env (Rng.replay fun _ : Fin 1 => σ) (npMat X) (npMat Y) (npMat Z) 1 1 (.gen 0)).out
      = .ok (⟨1 / 2, .fin 4⟩, s)) ∧
    ∀ {R : Type} (rng : Rng R) (rs : RandomLike R), ∃ s,
      (partialDistanceCovarianceTest env rng (npMat fun i => X (σ i)) (npMat Y) (npMat Z) 0 1 rs).out = .ok (⟨1, .fin 8⟩, s) := by
  have e : (fun i => rectX (Equiv.swap 2 3 i)) = rectY := by
    have h0 : Equiv.swap (2 : Fin 4) 3 0 = 0 := by decide
    have h1 : Equiv.swap (2 : Fin 4) 3 1 = 1 := by decide
    have h2 : Equiv.swap (2 : Fin 4) 3 2 = 3 := by decide
    have h3 : Equiv.swap (2 : Fin 4) 3 3 = 2 := by decide
    funext i
    match i with
    | 0 => rw [h0, show rectX 0 = ![0, 0] from rfl, show rectY 0 = ![0, 0] from rfl]
    | 1 => rw [h1, show rectX 1 = ![3, 4] from rfl, show rectY 1 = ![3, 4] from rfl]
    | 2 => rw [h2, show rectX 3 = ![3, 0] from rfl, show rectY 2 = ![3, 0] from rfl]
    | 3 => rw [h3, show rectX 2 = ![0, 4] from rfl, show rectY 3 = ![0, 4] from rfl]
  obtain ⟨k1, k2⟩ := rect_inner
  refine ⟨rectX, rectY, rectZ, Equiv.swap 2 3, ?_, fun rng rs => ?_⟩
  · have h := partialTestCall_mat (by norm_num) rectX rectY rectZ (α := 1) zero_le_one
    obtain ⟨t, T, s, hv, hT, -⟩ := C125_permutes_x_and_z (env := env) (nJobs := some 1) h (by simp)
      fun _ : Fin 1 => Equiv.swap 2 3
    rw [k1] at hT
    norm_num at hT
    have hp := C126_test h (by simp) one_ne_zero rectZ_sums hv (by rw [hT]; norm_num)
    subst hT
    have c : 1 / (((1 : ℕ) : ℝ) + 1) = 1 / 2 := by norm_num
    rw [hp, c, Nat.cast_one] at hv
    exact ⟨s, hv⟩
  · rw [e]
    have h := partialTestCall_mat (by norm_num) rectY rectY rectZ (α := 1) zero_le_one
    have k := congrArg PyM.out (partialDistanceCovarianceTest_ok (env := env) (rng := rng) (rs := rs) (nJobs := some 1) h
      (by simp) 0)
    have c : 1 / (((0 : ℕ) : ℝ) + 1) = 1 := by norm_num
    have c' : ((4 : ℕ) : ℝ) * 2 = 8 := by norm_num
    rw [k2, Spec.permPvalue_min (fun i hi => absurd hi (Nat.not_lt_zero i)), c, c', Nat.cast_zero] at k
    exact ⟨_, k⟩

/-! ### Cases that meet the hypotheses

`C126_test` is applied to `rectX`, `rectY` and `rectZ` in `C125_permuted_sample_fails`. -/

example := C125_permutes_x_and_z (env := stdEnv) (nJobs := some 2) (partialTestCall_mat (by norm_num) rectX rectY rectZ (α := 1)
  zero_le_one) (by simp) ![Equiv.swap 2 3, Equiv.swap 0 1, 1]

/-- The permutation exchanges two observations for which `z` is the same. -/
example := C125_pvalue_partial (env := stdEnv) (nJobs := some 2) (partialTestCall_mat (by norm_num) rectX rectY rectZ (α := 1)
  zero_le_one) (by simp) (fun _ : Fin 7 => Equiv.swap 1 2) (by
    have e : ∀ k, rectZ (Equiv.swap 1 2 k) = rectZ k := fun k => by fin_cases k <;> rfl
    intro i k l
    rw [e, e])

example := C126_correlation (env := stdEnv) (npMat_holds rectX) (npMat_holds rectY) (npMat_holds rectZ) rectZ_sums

/-- The hypothesis on `z` is needed: with the constant `z` the value is that of the bias-corrected distance correlation, here
`1 / 2`. -/
theorem C126_constant_z (env : Env) : (partialDistanceCorrelation env (npMat rectX) (npMat rectY)
    (npMat fun _ : Fin 4 => ![(0 : ℝ)])).out = .ok (.fin (1 / 2)) := by
  rw [congrArg PyM.out (partialDistanceCorrelation_ok env (by norm_num) (npMat_holds rectX) (npMat_holds rectY) (npMat_holds _))]
  have c' {s : ℕ} (U : Fin 4 → Fin s → ℝ) : Spec.Centred (Spec.uCentre (Spec.distMat 1 U)) := centred_dist one_ne_zero
  have z0 : Spec.uInner (Spec.uCentre (Spec.distMat 1 fun _ : Fin 4 => ![(0 : ℝ)]))
      (Spec.uCentre (Spec.distMat 1 fun _ : Fin 4 => ![(0 : ℝ)])) = 0 := by
    rw [uInner_four (c' _) (c' _)]
    norm_num [Spec.uCentre, Spec.distMat, Spec.dist]
  obtain ⟨⟨x1, x2⟩, ⟨y1, y2⟩, -⟩ := rect_entries
  unfold Spec.partialDcor Spec.partialDcov Spec.uResidual Spec.uMat
  rw [if_pos z0, if_pos z0, uInner_four (c' _) (c' _), uInner_four (c' _) (c' _), uInner_four (c' _) (c' _), x1, x2, y1, y2]
  have e : √(4 : ℝ) = 2 := by
    rw [show (4 : ℝ) = 2 ^ 2 by norm_num]
    exact Real.sqrt_sq (by norm_num)
  norm_num [Spec.ratio, e, PyM.pure]

end Dcor.Props

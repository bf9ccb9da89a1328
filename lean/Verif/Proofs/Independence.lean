/-
Values of the independence tests.
-/
import Verif.Model.Independence
import Verif.Spec.Tests
import Verif.Proofs.Hypothesis
import Verif.Proofs.Partial

namespace Dcor

open Finset

variable {n p q r : ℕ} {env : Env} {x y z : Arr} {α : ℝ} {X : Fin n → Fin p → ℝ}
  {Y : Fin n → Fin q → ℝ} {Z : Fin n → Fin r → ℝ} {S : Type} {rng : Rng S} {rs : RandomLike S}
  {nJobs : Option ℤ}

theorem doubleDistanceMatrix_ok (hn : 0 < n) (ns : Namespace) (dt : DType)
    (hd : dt = .decimal → ∃ k : ℤ, α = k) :
    doubleDistanceMatrix env ns dt ⟨n, p, X⟩ α
      = ⟨dcovWarns α, .ok (FMat.ofReal (Spec.centre (Spec.distMat α X)))⟩ := by
  unfold doubleDistanceMatrix
  rw [checkValidDcovExponent_eq, PyM.mk_ok_bind, pdist_eq env ns dt X α hd, PyM.lift_ok_bind,
    if_neg (by rintro ⟨-, h⟩; exact hn.ne' h), doubleCentered_symm _ (Spec.distMat_symm α X)]
  simp [PyM.pure]

theorem dcovTestSetup_ok (h : DcovTestCall x y α X Y) :
    dcovTestSetup env x y α = ⟨dcovWarns α ++ dcovWarns α,
      .ok ⟨n, FMat.ofReal (Spec.centre (Spec.distMat α X)),
        dcovTestStatistic x y (FMat.ofReal (Spec.centre (Spec.distMat α Y)))⟩⟩ := by
  unfold dcovTestSetup
  rw [h.hx.to2d, h.hy.to2d, PyM.lift_ok_bind, PyM.lift_ok_bind]
  simp only [dite_true]
  rw [doubleDistanceMatrix_ok h.hn _ _ (fun e => absurd e h.dx),
    doubleDistanceMatrix_ok h.hn _ _ (fun e => absurd e h.dy), PyM.mk_ok_bind, PyM.mk_ok_bind]
  simp only [PyM.pure, List.append_nil]
  rfl

theorem dcovTestStatistic_ok (h : DcovTestCall x y α X Y) (X' : Fin n → Fin p → ℝ) :
    dcovTestStatistic x y (FMat.ofReal (Spec.centre (Spec.distMat α Y)))
      (FMat.ofReal (Spec.centre (Spec.distMat α X')))
      = .ok ⟨.fin (Spec.dcovStat α X' Y), .npFloat⟩ := by
  have hm : mixedDecimal x y = false := by
    unfold mixedDecimal
    have h1 := h.dx
    have h2 := h.dy
    cases hx : x.dtype <;> cases hy : y.dtype <;> simp_all
  unfold dcovTestStatistic
  rw [hm, if_neg (by simp), meanProduct_ofReal h.hn, if_neg h.dx, FP.fin_mul]
  rfl

/-- Permuting the centred matrix is centring the distances of the permuted sample. -/
theorem permutedMatrix_centre (σ : Equiv.Perm (Fin n)) :
    permutedMatrix (FMat.ofReal (Spec.centre (Spec.distMat α X))) σ
      = FMat.ofReal (Spec.centre (Spec.distMat α fun i => X (σ i))) := by
  rw [Spec.distMat_reorder, Spec.centre_reorder]
  rfl

theorem distanceCovarianceTest_ok (h : DcovTestCall x y α X Y) (hj : nJobs ≠ some 0) (B : ℕ) :
    distanceCovarianceTest env rng x y B α rs nJobs = ⟨dcovWarns α ++ dcovWarns α,
      .ok (⟨Spec.permPvalue (.fin (Spec.dcovStat α X Y)) (fun i => .fin (Spec.dcovStat α
          (fun k => X (permAt rng n (randomStateInit rng rs) i k)) Y)) B,
        .fin (Spec.dcovStat α X Y)⟩, stateAt rng n (randomStateInit rng rs) B)⟩ := by
  unfold distanceCovarianceTest PyM.permutationTest
  rw [dcovTestSetup_ok h, PyM.mk_ok_bind]
  dsimp only
  rw [permutationTest_ok hj B (dcovTestStatistic_ok h X) (k := fun _ => .npFloat) fun i _ => by
    unfold permutedStatistic
    rw [permutedMatrix_centre, dcovTestStatistic_ok h]]
  simp [PyM.lift]

theorem objKind_numpy {x : Arr} (h : x.dtype.isObject = false) : objKind x x = .numpy := by
  unfold objKind
  rw [if_neg (by simp [h])]

theorem partialTestSetup_ok (h : PartialTestCall x y z α X Y Z) :
    partialTestSetup env x y z α = ⟨dcovWarns α ++ (dcovWarns α ++ dcovWarns α),
      .ok ⟨n, FMat.ofReal (Spec.residualMat α Z X),
        partialTestStatistic n .numpy ⟨n, .numpy, FMat.ofReal (Spec.residualMat α Z Y)⟩⟩⟩ := by
  have hdec : ∀ a : Arr, a.dtype.isObject = false → (a.dtype = .decimal → ∃ k : ℤ, α = k) := by
    intro a ha hc
    rw [hc] at ha
    cases ha
  have hn2 : 2 < n := by have := h.hn; omega
  have hdz : ∀ i, Spec.uCentre (Spec.distMat α Z) i i = 0 := Spec.uCentre_diag _
  unfold partialTestSetup
  rw [uDistanceMatrix_ok_exp env hn2 h.hx α (hdec _ h.dx),
    uDistanceMatrix_ok_exp env hn2 h.hy α (hdec _ h.dy),
    uDistanceMatrix_ok_exp env hn2 h.hz α (hdec _ h.dz),
    objKind_numpy h.dx, objKind_numpy h.dy, objKind_numpy h.dz, PyM.mk_ok_bind, PyM.mk_ok_bind,
    PyM.mk_ok_bind, uProductB_same h.hn, PyM.lift_ok_bind]
  obtain ⟨k1, hk1, e1⟩ := complProj_ok h.hn hdz .numpy .numpy (Spec.uCentre (Spec.distMat α X))
  obtain ⟨k2, hk2, e2⟩ := complProj_ok h.hn hdz .numpy .numpy (Spec.uCentre (Spec.distMat α Y))
  rw [hk1 rfl rfl] at e1
  rw [hk2 rfl rfl] at e2
  rw [e1, PyM.lift_ok_bind, e2, PyM.lift_ok_bind]
  simp only [PyM.pure, List.append_nil]
  rfl

theorem residualMat_diag (Z : Fin n → Fin r → ℝ) (X : Fin n → Fin p → ℝ) (i : Fin n) :
    Spec.residualMat α Z X i i = 0 := by
  unfold Spec.residualMat Spec.uResidual
  split_ifs <;> simp [Spec.uCentre_diag]

theorem partialTestStatistic_ok (hn : 3 < n) (a b : RMat n) (hb : ∀ i, b i i = 0) :
    partialTestStatistic n .numpy ⟨n, .numpy, FMat.ofReal b⟩ (FMat.ofReal a)
      = .ok ⟨.fin (n * Spec.uInner a b), .npFloat⟩ := by
  unfold partialTestStatistic
  rw [uProductB_same hn, Spec.uInner_eq_uIp fun i => by rw [hb, mul_zero]]
  rfl

theorem partialDistanceCovarianceTest_ok (h : PartialTestCall x y z α X Y Z)
    (hj : nJobs ≠ some 0) (B : ℕ) :
    partialDistanceCovarianceTest env rng x y z B α rs nJobs
      = ⟨dcovWarns α ++ (dcovWarns α ++ dcovWarns α),
      .ok (⟨Spec.permPvalue
          (.fin (n * Spec.uInner (Spec.residualMat α Z X) (Spec.residualMat α Z Y)))
          (fun i => .fin (n * Spec.uInner
            (fun k l => Spec.residualMat α Z X (permAt rng n (randomStateInit rng rs) i k)
              (permAt rng n (randomStateInit rng rs) i l)) (Spec.residualMat α Z Y))) B,
        .fin (n * Spec.uInner (Spec.residualMat α Z X) (Spec.residualMat α Z Y))⟩,
        stateAt rng n (randomStateInit rng rs) B)⟩ := by
  unfold partialDistanceCovarianceTest PyM.permutationTest
  rw [partialTestSetup_ok h, PyM.mk_ok_bind]
  dsimp only
  rw [permutationTest_ok hj B (partialTestStatistic_ok h.hn _ _ (residualMat_diag Z Y))
    (k := fun _ => .npFloat) fun i _ =>
      partialTestStatistic_ok h.hn _ _ (residualMat_diag Z Y)]
  simp [PyM.lift]

end Dcor

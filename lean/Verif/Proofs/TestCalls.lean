/-
The three permutation tests are instances of `permutationTest`; recorded generators.
-/
import Verif.Spec.TestCalls
import Verif.Proofs.Hypothesis
import Verif.Proofs.Independence
import Verif.Proofs.Homogeneity

namespace Dcor

open Finset

variable {S : Type} {rng : Rng S} {rs : RandomLike S} {nJobs : Option ℤ}

/-! ### What the three tests have in common -/

theorem setup_out {α : Type} {setup : PyM (TestSetup α)} {B : ℤ}
    {v : HypothesisTest × S} (h : (setup.permutationTest rng B rs nJobs).out = .ok v) :
    ∃ t, setup.out = .ok t ∧ permutationTest rng t.matrix t.stat B rs nJobs = .ok v := by
  unfold PyM.permutationTest at h
  cases hs : setup.out with
  | error e => rw [PyM.bind_err hs] at h; cases h
  | ok t => rw [PyM.bind_ok hs] at h; exact ⟨t, rfl, h⟩

theorem setup_ok {α : Type} {setup : PyM (TestSetup α)} {B : ℤ} {t : TestSetup α}
    (hs : setup.out = .ok t) :
    (setup.permutationTest rng B rs nJobs).out
      = permutationTest rng t.matrix t.stat B rs nJobs := by
  unfold PyM.permutationTest
  rw [PyM.bind_ok hs]
  rfl

/-- Every returning call is a permutation test of some matrix and statistic that do not depend on the
resampling arguments. -/
theorem TestCall.run_eq (c : TestCall) (env : Env) :
    (∃ e, ∀ {S : Type} (rng : Rng S) B rs nJobs, (c.run env rng B rs nJobs).out = .error e ∧
      ∀ out, c.Outcome env rng B rs nJobs out ↔ out = .error e) ∨
    ∃ (α : Type) (t : TestSetup α), (∀ n, c.Rows n → t.n = n) ∧
      ∀ {S : Type} (rng : Rng S) B rs nJobs,
      (c.run env rng B rs nJobs).out = permutationTest rng t.matrix t.stat B rs nJobs ∧
      ∀ out, c.Outcome env rng B rs nJobs out
        ↔ PermutationTestRun rng t.matrix t.stat B rs nJobs out := by
  have key : ∀ {α : Type} (setup : PyM (TestSetup α)) (P : ℕ → Prop)
      (_ : ∀ t, setup.out = .ok t → P t.n),
      (∃ e, ∀ {S : Type} (rng : Rng S) B rs nJobs,
        (setup.permutationTest rng B rs nJobs).out = .error e ∧
        ∀ out, setup.PermutationTestRun rng B rs nJobs out ↔ out = .error e) ∨
      ∃ t : TestSetup α, P t.n ∧ ∀ {S : Type} (rng : Rng S) B rs nJobs,
        (setup.permutationTest rng B rs nJobs).out
          = permutationTest rng t.matrix t.stat B rs nJobs ∧
        ∀ out, setup.PermutationTestRun rng B rs nJobs out
          ↔ PermutationTestRun rng t.matrix t.stat B rs nJobs out := by
    intro α setup P hP
    cases hs : setup.out with
    | error e =>
      refine Or.inl ⟨e, fun rng B rs nJobs => ⟨?_, fun out => ?_⟩⟩
      · unfold PyM.permutationTest
        rw [PyM.bind_err hs]
      · unfold PyM.PermutationTestRun
        rw [hs]
    | ok t =>
      refine Or.inr ⟨t, hP t hs, fun rng B rs nJobs => ⟨setup_ok hs, fun out => ?_⟩⟩
      unfold PyM.PermutationTestRun
      rw [hs]
  have h2d : ∀ {x : Arr} {m : Mat2}, transformTo2d x.data = .ok m → m.n = x.shape0 := by
    intro x m h
    unfold transformTo2d at h
    unfold Arr.shape0
    cases hx : x.data <;> rw [hx] at h <;> cases h <;> rfl
  cases c with
  | dcov x y α =>
    rcases key (dcovTestSetup env x y α) (fun n => n = x.shape0) (by
      intro t ht
      unfold dcovTestSetup at ht
      cases hx : transformTo2d x.data with
      | error e => rw [hx] at ht; cases ht
      | ok x2 =>
        cases hy : transformTo2d y.data with
        | error e => rw [hx, hy] at ht; cases ht
        | ok y2 =>
          rw [hx, hy, PyM.lift_ok_bind, PyM.lift_ok_bind] at ht
          by_cases hn : x2.n = y2.n
          · rw [dif_pos hn] at ht
            dsimp only at ht
            cases h1 : (doubleDistanceMatrix env (commonNs x.ns y.ns) x.dtype x2 α).out with
            | error e => rw [PyM.bind_err h1] at ht; cases ht
            | ok ux =>
              rw [PyM.bind_ok h1] at ht
              cases h2 : (doubleDistanceMatrix env (commonNs x.ns y.ns) y.dtype y2 α).out with
              | error e => rw [PyM.bind_err h2] at ht; cases ht
              | ok uy =>
                rw [PyM.bind_ok h2] at ht
                cases ht
                exact h2d hx
          · rw [dif_neg hn] at ht
            cases ht) with h | ⟨t, h1, h2⟩
    · exact Or.inl h
    · exact Or.inr ⟨_, t, fun n hn => h1.trans hn.1, h2⟩
  | partialDcov x y z α =>
    rcases key (partialTestSetup env x y z α)
        (fun m => ∀ n, x.shape0 = n ∧ y.shape0 = n ∧ z.shape0 = n → m = n) (by
      intro t ht n hn
      have hu : ∀ {x : Arr} {u : FSq}, (uDistanceMatrix env x α).out = .ok u →
          u.n = x.shape0 := by
        intro x u h
        unfold uDistanceMatrix at h
        rw [checkValidDcovExponent_eq, PyM.mk_ok_bind] at h
        dsimp only at h
        cases hx : transformTo2d x.data with
        | error e => rw [hx] at h; cases h
        | ok x2 =>
          rw [hx, PyM.lift_ok_bind] at h
          cases hp : pdist env x.ns x.dtype x2 α with
          | error e => rw [hp] at h; cases h
          | ok a =>
            rw [hp, PyM.lift_ok_bind] at h
            split_ifs at h
            · cases h
            · cases h
              exact h2d hx
      unfold partialTestSetup at ht
      cases hx : (uDistanceMatrix env x α).out with
      | error e => rw [PyM.bind_err hx] at ht; cases ht
      | ok ux =>
      rw [PyM.bind_ok hx] at ht
      cases hy : (uDistanceMatrix env y α).out with
      | error e => rw [PyM.bind_err hy] at ht; cases ht
      | ok uy =>
      rw [PyM.bind_ok hy] at ht
      cases hz : (uDistanceMatrix env z α).out with
      | error e => rw [PyM.bind_err hz] at ht; cases ht
      | ok uz =>
      rw [PyM.bind_ok hz] at ht
      cases hd : uProductB uz uz with
      | error e => rw [hd] at ht; cases ht
      | ok d =>
      rw [hd, PyM.lift_ok_bind] at ht
      cases h1 : uComplementaryProjectionB uz d ux with
      | error e => rw [h1] at ht; cases ht
      | ok pxz =>
      rw [h1, PyM.lift_ok_bind] at ht
      cases h2 : uComplementaryProjectionB uz d uy with
      | error e => rw [h2] at ht; cases ht
      | ok pyz =>
      rw [h2, PyM.lift_ok_bind] at ht
      cases ht
      show pxz.n = n
      unfold uComplementaryProjectionB at h1
      cases hp : uProjectionB uz d ux with
      | error e => rw [hp] at h1; cases h1
      | ok p =>
      rw [hp, Except.ok_bind'] at h1
      have hpn : p.n = uz.n := by
        unfold uProjectionB at hp
        split_ifs at hp
        · cases hp; rfl
        · cases hq : uProductB ux uz with
          | error e => rw [hq] at hp; cases hp
          | ok q => rw [hq] at hp; cases hp; rfl
      unfold FSq.zipWith at h1
      have e : ux.n = p.n := by rw [hpn, hu hx, hu hz, hn.1, hn.2.2]
      rw [dif_pos e] at h1
      cases h1
      exact (hu hx).trans hn.1) with h | ⟨t, h1, h2⟩
    · exact Or.inl h
    · exact Or.inr ⟨_, t, fun n hn => h1 n hn, h2⟩
  | energy args o =>
    rcases key (energyTestSetup env args o) (fun m => m = (args.map Arr.shape0).sum) (by
      intro t ht
      unfold energyTestSetup at ht
      cases hs : args.mapM fun a => transformTo2d a.data with
      | error e => rw [hs] at ht; cases ht
      | ok samples =>
      rw [hs, PyM.lift_ok_bind, checkValidEnergyExponent_eq, PyM.mk_ok_bind] at ht
      dsimp only at ht
      cases hc : concatMats samples with
      | error e => rw [hc] at ht; cases ht
      | ok pooled =>
      rw [hc, PyM.lift_ok_bind] at ht
      split_ifs at ht
      · cases ht
      have hsum : ∀ (args : List Arr) (samples : List Mat2),
          (args.mapM fun a => transformTo2d a.data) = .ok samples →
          (samples.map Mat2.n).sum = (args.map Arr.shape0).sum := by
        intro args
        induction args with
        | nil => intro samples h; cases h; rfl
        | cons a args ih =>
          intro samples h
          rw [List.mapM_cons] at h
          cases ha : transformTo2d a.data with
          | error e => rw [ha] at h; cases h
          | ok m =>
            rw [ha, Except.ok_bind'] at h
            cases hr : args.mapM fun a => transformTo2d a.data with
            | error e => rw [hr] at h; cases h
            | ok ms =>
              rw [hr, Except.ok_bind'] at h
              cases h
              rw [List.map_cons, List.sum_cons, List.map_cons, List.sum_cons, ih ms hr, h2d ha]
      have hfold : ∀ (l : List Mat2) (a r : Mat2), l.foldlM appendMat a = .ok r →
          r.n = a.n + (l.map Mat2.n).sum := by
        intro l
        induction l with
        | nil => intro a r h; cases h; rfl
        | cons b l ih =>
          intro a r h
          rw [List.foldlM_cons] at h
          cases hab : appendMat a b with
          | error e => rw [hab] at h; cases h
          | ok ab =>
            rw [hab, Except.ok_bind'] at h
            rw [ih ab r h, List.map_cons, List.sum_cons, ← add_assoc]
            congr 1
            unfold appendMat at hab
            split_ifs at hab
            cases hab
            rfl
      have hn : pooled.n = (args.map Arr.shape0).sum := by
        rw [← hsum args samples hs]
        cases samples with
        | nil => cases hc
        | cons a rest => exact hfold rest a pooled hc
      cases hp : pdist env (commonNsList (args.map Arr.ns)) (joinDTypes (args.map Arr.dtype))
          pooled o.exponent with
      | error e => rw [hp] at ht; cases ht
      | ok d =>
        rw [hp, PyM.lift_ok_bind] at ht
        cases ht
        exact hn) with h | ⟨t, h1, h2⟩
    · exact Or.inl h
    · exact Or.inr ⟨_, t, fun n hn => h1.trans hn, h2⟩

/-! ### Recorded generators -/

theorem stateAt_logged (n : ℕ) (s : S) (l : List ℕ) (k : ℕ) :
    stateAt rng.logged n (s, l) k = (stateAt rng n s k, List.replicate k n ++ l) := by
  induction k with
  | zero => rfl
  | succ k ih =>
    rw [stateAt_succ, ih, stateAt_succ]
    rfl

theorem permAt_logged (n : ℕ) (s : S) (l : List ℕ) (k : ℕ) :
    permAt rng.logged n (s, l) k = permAt rng n s k := by
  unfold permAt
  rw [stateAt_logged]
  rfl

/-- The outcome depends on the generator only through the permutations it produces. -/
theorem permutationTest_congr {S' α : Type} {n : ℕ} {matrix : Fin n → Fin n → α}
    {stat : (Fin n → Fin n → α) → Except PyErr Scalar} {B : ℤ} (rng' : Rng S') (rs' : RandomLike S')
    (hp : ∀ i < B.toNat, permAt rng n (randomStateInit rng rs) i
      = permAt rng' n (randomStateInit rng' rs') i) {r : HypothesisTest} {s' : S}
    (h : permutationTest rng matrix stat B rs nJobs = .ok (r, s')) :
    permutationTest rng' matrix stat B rs' nJobs
      = .ok (r, stateAt rng' n (randomStateInit rng' rs') B.toNat) := by
  have e : (drawPermutations rng n B.toNat (randomStateInit rng rs)).1
      = (drawPermutations rng' n B.toNat (randomStateInit rng' rs')).1 := by
    rw [drawPermutations_eq, drawPermutations_eq]
    exact List.map_congr_left fun i hi => hp i (List.mem_range.1 hi)
  unfold permutationTest at h ⊢
  dsimp only at h ⊢
  rw [e] at h
  cases hst : stat matrix with
  | error e => rw [hst] at h; cases h
  | ok v =>
    rw [hst, Except.ok_bind'] at h
    rw [Except.ok_bind']
    by_cases hj : nJobs = some 0
    · rw [if_pos hj] at h; cases h
    rw [if_neg hj] at h ⊢
    simp only [Except.pure_eq] at h ⊢
    cases hb : sequenceResults ((drawPermutations rng' n B.toNat (randomStateInit rng' rs')).1.map
        (permutedStatistic matrix stat)) with
    | error e => rw [hb] at h; cases h
    | ok boot =>
      rw [hb, Except.ok_bind'] at h
      rw [Except.ok_bind']
      cases hf : finishTest v B boot with
      | error e => rw [hf] at h; cases h
      | ok r' =>
        rw [hf, Except.ok_bind'] at h
        rw [Except.ok_bind', drawPermutations_eq]
        cases h
        rfl

end Dcor

/-
How failures of the terms computation surface in the public functions.
-/
import Verif.Proofs.Api

namespace Dcor

open Finset

/-- The results of all the public covariance and correlation functions on one call, reduced to
"returned" or "raised". -/
noncomputable def allOutcomes (env : Env) (x y : Arr) (o : Opts) : List (Except PyErr Unit) :=
  [ (distanceCovarianceSqr env x y o).out.map (fun _ => ()),
    (uDistanceCovarianceSqr env x y o).out.map (fun _ => ()),
    (distanceCovariance env x y o).out.map (fun _ => ()),
    (distanceStatsSqr env x y o).out.map (fun _ => ()),
    (uDistanceStatsSqr env x y o).out.map (fun _ => ()),
    (distanceStats env x y o).out.map (fun _ => ()),
    (distanceCorrelationSqr env x y o).out.map (fun _ => ()),
    (uDistanceCorrelationSqr env x y o).out.map (fun _ => ()),
    (distanceCorrelation env x y o).out.map (fun _ => ()) ]

/-- Every function raises `e`. -/
def AllRaise (env : Env) (x y : Arr) (o : Opts) (e : PyErr) : Prop :=
  ∀ r ∈ allOutcomes env x y o, r = .error e

theorem allRaise_of_terms {env : Env} {x y : Arr} {o : Opts} {m : Method} {e : PyErr}
    (hm : toAlgorithm env o.method = .ok m)
    (h : ∀ rv, (dcovTerms env m x y o.exponent o.compileMode rv).out = .error e) :
    AllRaise env x y o e := by
  intro r hr
  have h1 : ∀ b, (dcovSqr env m x y o.exponent o.compileMode b).out = .error e := fun b => by
    unfold dcovSqr
    rw [PyM.bind_err (h false)]
  have h2 : ∀ b, (statsSqr env m x y o.exponent o.compileMode b).out = .error e := fun b => by
    unfold statsSqr
    rw [PyM.bind_err (h true)]
  have a1 : (distanceCovarianceSqr env x y o).out = .error e := by
    unfold distanceCovarianceSqr; rw [hm, PyM.lift_ok_bind, h1]
  have a2 : (uDistanceCovarianceSqr env x y o).out = .error e := by
    unfold uDistanceCovarianceSqr; rw [hm, PyM.lift_ok_bind, h1]
  have a3 : (distanceCovariance env x y o).out = .error e := by
    unfold distanceCovariance; rw [PyM.bind_err a1]
  have a4 : (distanceStatsSqr env x y o).out = .error e := by
    unfold distanceStatsSqr; rw [hm, PyM.lift_ok_bind, h2]
  have a5 : (uDistanceStatsSqr env x y o).out = .error e := by
    unfold uDistanceStatsSqr; rw [hm, PyM.lift_ok_bind, h2]
  have a6 : (distanceStats env x y o).out = .error e := by
    unfold distanceStats; rw [PyM.bind_err a4]
  have a7 : (distanceCorrelationSqr env x y o).out = .error e := by
    unfold distanceCorrelationSqr; rw [hm, PyM.lift_ok_bind, PyM.bind_err (h2 _)]
  have a8 : (uDistanceCorrelationSqr env x y o).out = .error e := by
    unfold uDistanceCorrelationSqr; rw [hm, PyM.lift_ok_bind, PyM.bind_err (h2 _)]
  have a9 : (distanceCorrelation env x y o).out = .error e := by
    unfold distanceCorrelation; rw [PyM.bind_err a7]
  simp only [allOutcomes, a1, a2, a3, a4, a5, a6, a7, a8, a9, List.mem_cons, List.not_mem_nil, Except.map,
    or_false, or_self] at hr
  exact hr

theorem allRaise_of_method {env : Env} {x y : Arr} {o : Opts} {e : PyErr}
    (hm : toAlgorithm env o.method = .error e) : AllRaise env x y o e := by
  intro r hr
  have a1 : (distanceCovarianceSqr env x y o).out = .error e := by
    unfold distanceCovarianceSqr; rw [hm]; rfl
  have a4 : (distanceStatsSqr env x y o).out = .error e := by
    unfold distanceStatsSqr; rw [hm]; rfl
  have a7 : (distanceCorrelationSqr env x y o).out = .error e := by
    unfold distanceCorrelationSqr; rw [hm]; rfl
  have a2 : (uDistanceCovarianceSqr env x y o).out = .error e := by
    unfold uDistanceCovarianceSqr; rw [hm]; rfl
  have a5 : (uDistanceStatsSqr env x y o).out = .error e := by
    unfold uDistanceStatsSqr; rw [hm]; rfl
  have a8 : (uDistanceCorrelationSqr env x y o).out = .error e := by
    unfold uDistanceCorrelationSqr; rw [hm]; rfl
  have a3 : (distanceCovariance env x y o).out = .error e := by
    unfold distanceCovariance; rw [PyM.bind_err a1]
  have a6 : (distanceStats env x y o).out = .error e := by
    unfold distanceStats; rw [PyM.bind_err a4]
  have a9 : (distanceCorrelation env x y o).out = .error e := by
    unfold distanceCorrelation; rw [PyM.bind_err a7]
  simp only [allOutcomes, a1, a2, a3, a4, a5, a6, a7, a8, a9, List.mem_cons, List.not_mem_nil, Except.map,
    or_false, or_self] at hr
  exact hr

theorem transformTo2d_n {x : Arr} {m : Mat2} (h : transformTo2d x.data = .ok m) :
    m.n = x.shape0 := by
  unfold transformTo2d at h
  unfold Arr.shape0
  cases hd : x.data <;> rw [hd] at h <;> simp at h <;> subst h <;> rfl

theorem transformTo1d_n {x : Arr} {m : Vec1} (h : transformTo1d x.data = .ok m) :
    m.n = x.shape0 := by
  unfold transformTo1d at h
  unfold Arr.shape0
  cases hd : x.data with
  | vec n v => rw [hd] at h; simp at h; subst h; rfl
  | mat n p v =>
    rw [hd] at h
    match p with
    | 0 => simp at h
    | 1 => simp at h; subst h; rfl
    | (k + 2) => simp at h
  | nd a b c d => rw [hd] at h; simp at h

/-- `cdistNaive` of an array with itself fails only for `Decimal` powers. -/
theorem cdistNaive_self (dt : DType) (x : Mat2) (α : ℝ) :
    (∃ d, cdistNaive dt x x α = .ok d) ∨ cdistNaive dt x x α = .error .typeError := by
  unfold cdistNaive
  simp only [dite_true]
  by_cases h : naivePowerFails dt α
  · right
    simp only [h, if_true]
    rfl
  · left
    simp only [h, if_false]
    exact ⟨_, rfl⟩

theorem pdist_cases (env : Env) (ns : Namespace) (dt : DType) (x : Mat2) (α : ℝ) :
    (∃ d, pdist env ns dt x α = .ok d) ∨ pdist env ns dt x α = .error .typeError := by
  unfold pdist
  split_ifs
  · exact Or.inl ⟨_, rfl⟩
  · exact cdistNaive_self dt x α

/-- The exponent check never fails. -/
theorem checkValidDcovExponent_out (α : ℝ) : (checkValidDcovExponent α).out = .ok () := by
  unfold checkValidDcovExponent
  split_ifs <;> rfl

/-- Possible outcomes of `_compute_distances`. -/
theorem computeDistances_cases (env : Env) (x y : Arr) (α : ℝ) :
    (∃ a b, (computeDistances env x y α).out = .ok (a, b) ∧ a.n = x.shape0 ∧ b.n = y.shape0) ∨
    (computeDistances env x y α).out = .error .assertionError ∨
    (computeDistances env x y α).out = .error .typeError := by
  unfold computeDistances
  rw [PyM.bind_ok (checkValidDcovExponent_out α)]
  cases hx : transformTo2d x.data with
  | error e =>
    have : e = .assertionError := by
      unfold transformTo2d at hx
      cases hd : x.data <;> rw [hd] at hx <;> simp at hx
      exact hx.symm
    subst this
    right; left
    rfl
  | ok mx =>
    rw [PyM.lift_ok_bind]
    cases hy : transformTo2d y.data with
    | error e =>
      have : e = .assertionError := by
        unfold transformTo2d at hy
        cases hd : y.data <;> rw [hd] at hy <;> simp at hy
        exact hy.symm
      subst this
      right; left
      rfl
    | ok my =>
      rw [PyM.lift_ok_bind]
      simp only
      rcases pdist_cases env (commonNs x.ns y.ns) x.dtype mx α with ⟨d, h⟩ | h
      · rcases pdist_cases env (commonNs x.ns y.ns) y.dtype my α with ⟨d', h'⟩ | h'
        · left
          rw [h, h']
          simp only [PyM.lift_ok_bind, PyM.pure_out]
          exact ⟨_, _, rfl, transformTo2d_n hx, transformTo2d_n hy⟩
        · right; right
          rw [h, h']
          rfl
      · right; right
        rw [h]
        rfl

/-- Different lengths: the naive computation fails. -/
theorem dcovTermsNaive_mismatch (env : Env) (x y : Arr) (α : ℝ) (cm : CompileMode)
    (h : x.shape0 ≠ y.shape0) : ∃ e ∈ [PyErr.notImplementedError, .assertionError, .typeError,
      .valueError], ∀ rv, (dcovTermsNaive env x y α cm rv).out = .error e := by
  by_cases hc : cm ≠ .auto ∧ cm ≠ .noCompile
  · refine ⟨.notImplementedError, by simp, fun rv => ?_⟩
    unfold dcovTermsNaive
    rw [if_pos hc]
    rfl
  · rcases computeDistances_cases env x y α with ⟨a, b, e, ha, hb⟩ | e | e
    · refine ⟨.valueError, by simp, fun rv => ?_⟩
      unfold dcovTermsNaive
      rw [if_neg hc, PyM.bind_ok e]
      simp only
      rw [dif_neg (by rw [ha, hb]; exact h)]
      rfl
    · refine ⟨.assertionError, by simp, fun rv => ?_⟩
      unfold dcovTermsNaive
      rw [if_neg hc, PyM.bind_err e]
    · refine ⟨.typeError, by simp, fun rv => ?_⟩
      unfold dcovTermsNaive
      rw [if_neg hc, PyM.bind_err e]

end Dcor

namespace Dcor

theorem PyM.bind_ne {α β : Type} {m : PyM α} {f : α → PyM β} {e : PyErr}
    (h : m.out ≠ .error e) (hf : ∀ a, m.out = .ok a → (f a).out ≠ .error e) :
    (m >>= f).out ≠ .error e := by
  cases hm : m.out with
  | ok a => rw [PyM.bind_ok hm]; exact hf a hm
  | error e' =>
    rw [PyM.bind_err hm]
    rw [hm] at h
    exact fun hc => h (by cases hc; rfl)

theorem npDiv_ne (k : NumKind) (a : FP ℝ) (d : ℤ) {e : PyErr} (he : e ≠ .zeroDivisionError) :
    npDiv k a d ≠ .error e := by
  unfold npDiv
  split_ifs
  · intro h; cases h; exact he rfl
  · simp

theorem Except.bind_ne {α β : Type} {m : Except PyErr α} {f : α → Except PyErr β} {e : PyErr}
    (h : m ≠ .error e) (hf : ∀ a, f a ≠ .error e) : (m >>= f) ≠ .error e := by
  cases m with
  | ok a => exact hf a
  | error e' => intro hc; apply h; cases hc; rfl

/-- `_dcov_from_terms` can only fail with `ZeroDivisionError`. -/
theorem dcovFromTerms_ne (k1 k2 k3 : NumKind) {n : ℕ} (mp : ℝ) (aa : Fin n → ℝ) (at' : ℝ)
    (ba : Fin n → ℝ) (bt : ℝ) (b : Bool) {e : PyErr} (he : e ≠ .zeroDivisionError) :
    dcovFromTerms k1 k2 k3 mp aa at' ba bt b ≠ .error e := by
  have hd := fun k a d => npDiv_ne k a d he
  unfold dcovFromTerms
  cases b <;>
  · refine Except.bind_ne (hd _ _ _) fun _ => Except.bind_ne (hd _ _ _) fun _ => ?_
    refine Except.bind_ne (hd _ _ _) fun _ => Except.bind_ne (hd _ _ _) fun _ =>
      Except.bind_ne (hd _ _ _) fun _ => ?_
    simp [pure, Except.pure]

/-- An exception other than `ZeroDivisionError` and `TypeError` can only come from the terms. -/
theorem allOutcomes_ne {env : Env} {x y : Arr} {o : Opts} {m : Method} {e : PyErr}
    (hm : toAlgorithm env o.method = .ok m)
    (h : ∀ rv, (dcovTerms env m x y o.exponent o.compileMode rv).out ≠ .error e)
    (he : e ≠ .zeroDivisionError) (he' : e ≠ .typeError) :
    ∀ r ∈ allOutcomes env x y o, r ≠ .error e := by
  have h1 : ∀ b, (dcovSqr env m x y o.exponent o.compileMode b).out ≠ .error e := fun b => by
    unfold dcovSqr
    exact PyM.bind_ne (h false) fun t _ => dcovFromTerms_ne _ _ _ _ _ _ _ _ _ he
  have h2 : ∀ b, (statsSqr env m x y o.exponent o.compileMode b).out ≠ .error e := fun b => by
    unfold statsSqr
    refine PyM.bind_ne (h true) fun t _ => ?_
    cases t.varA with
    | none => intro hc; apply he'; cases hc; rfl
    | some va =>
      cases t.varB with
      | none => intro hc; apply he'; cases hc; rfl
      | some vb =>
        refine PyM.bind_ne (dcovFromTerms_ne _ _ _ _ _ _ _ _ _ he) fun _ _ => ?_
        refine PyM.bind_ne (dcovFromTerms_ne _ _ _ _ _ _ _ _ _ he) fun _ _ => ?_
        refine PyM.bind_ne (dcovFromTerms_ne _ _ _ _ _ _ _ _ _ he) fun _ _ => ?_
        split_ifs
        · intro hc; apply he'; cases hc; rfl
        · simp
  have a1 : (distanceCovarianceSqr env x y o).out ≠ .error e := by
    unfold distanceCovarianceSqr; rw [hm, PyM.lift_ok_bind]; exact h1 _
  have a2 : (uDistanceCovarianceSqr env x y o).out ≠ .error e := by
    unfold uDistanceCovarianceSqr; rw [hm, PyM.lift_ok_bind]; exact h1 _
  have a3 : (distanceCovariance env x y o).out ≠ .error e := by
    unfold distanceCovariance; exact PyM.bind_ne a1 fun _ _ => by simp
  have a4 : (distanceStatsSqr env x y o).out ≠ .error e := by
    unfold distanceStatsSqr; rw [hm, PyM.lift_ok_bind]; exact h2 _
  have a5 : (uDistanceStatsSqr env x y o).out ≠ .error e := by
    unfold uDistanceStatsSqr; rw [hm, PyM.lift_ok_bind]; exact h2 _
  have a6 : (distanceStats env x y o).out ≠ .error e := by
    unfold distanceStats; exact PyM.bind_ne a4 fun _ _ => by simp
  have a7 : (distanceCorrelationSqr env x y o).out ≠ .error e := by
    unfold distanceCorrelationSqr; rw [hm, PyM.lift_ok_bind]
    exact PyM.bind_ne (h2 _) fun _ _ => by simp
  have a8 : (uDistanceCorrelationSqr env x y o).out ≠ .error e := by
    unfold uDistanceCorrelationSqr; rw [hm, PyM.lift_ok_bind]
    exact PyM.bind_ne (h2 _) fun _ _ => by simp
  have a9 : (distanceCorrelation env x y o).out ≠ .error e := by
    unfold distanceCorrelation; exact PyM.bind_ne a7 fun _ _ => by simp
  have hmap : ∀ {α : Type} (m : Except PyErr α), m ≠ .error e →
      m.map (fun _ => ()) ≠ .error e := by
    intro α m hm hc
    cases m with
    | ok a => simp [Except.map] at hc
    | error e' => simp [Except.map] at hc; exact hm (by rw [hc])
  intro r hr
  simp only [allOutcomes, List.mem_cons, List.not_mem_nil, or_false] at hr
  rcases hr with rfl | rfl | rfl | rfl | rfl | rfl | rfl | rfl | rfl
  · exact hmap _ a1
  · exact hmap _ a2
  · exact hmap _ a3
  · exact hmap _ a4
  · exact hmap _ a5
  · exact hmap _ a6
  · exact hmap _ a7
  · exact hmap _ a8
  · exact hmap _ a9

end Dcor

/-
Properties C19, C44-C46: small samples, rejected calls and the fallback to uncompiled code.
-/
import Verif.Proofs.Failures
import Verif.Props.Witness

namespace Dcor.Props

open Finset

variable {n p q : ℕ} {env : Env} {x y : Arr} {o : Opts} {X : Fin n → Fin p → ℝ}
  {Y : Fin n → Fin q → ℝ}

/-! ### C45 -/

/-- Univariate data: a vector or a one-column matrix. -/
inductive Univariate : ArrData → Prop
  | vec (n : ℕ) (v : Fin n → ℝ) : Univariate (.vec n v)
  | col (n : ℕ) (m : Fin n → Fin 1 → ℝ) : Univariate (.mat n 1 m)

private theorem univariate_to1d {d : ArrData} (h : Univariate d) :
    ∃ v, transformTo1d d = .ok v := by
  cases h <;> exact ⟨_, rfl⟩

private theorem not_univariate_to1d {d : ArrData} (h : ¬ Univariate d) :
    transformTo1d d = .error .assertionError := by
  unfold transformTo1d
  split
  · exact absurd (.vec _ _) h
  · exact absurd (.col _ _) h
  · rfl
  · rfl

/-- C45: a fast method with an exponent different from one raises `ValueError`, whatever the
samples. -/
theorem C45_fast_exponent {m : Method} (hm : toAlgorithm env o.method = .ok m)
    (hf : m = .avl ∨ m = .mergesort) (he : o.exponent ≠ 1) (x y : Arr) :
    AllRaise env x y o .valueError := by
  apply allRaise_of_terms hm
  intro rv
  rcases hf with rfl | rfl <;>
  · simp only [dcovTerms, dcovTermsAvl, dcovTermsMergesort, fastTerms]
    rw [if_pos he]
    rfl

/-- C45: with exponent one, data that are not univariate raise `AssertionError`. -/
theorem C45_fast_multivariate {m : Method} (hm : toAlgorithm env o.method = .ok m)
    (hf : m = .avl ∨ m = .mergesort) (he : o.exponent = 1)
    (hu : ¬ Univariate x.data ∨ ¬ Univariate y.data) :
    AllRaise env x y o .assertionError := by
  apply allRaise_of_terms hm
  intro rv
  have key : ∀ w impl, (fastTerms w impl x y o.exponent o.compileMode).out
      = .error .assertionError := by
    intro w impl
    unfold fastTerms
    rw [if_neg (not_not.2 he)]
    by_cases hx : Univariate x.data
    · obtain ⟨v, hv⟩ := univariate_to1d hx
      have hy : ¬ Univariate y.data := by tauto
      rw [hv, PyM.lift_ok_bind, not_univariate_to1d hy]
      rfl
    · rw [not_univariate_to1d hx]
      rfl
  rcases hf with rfl | rfl
  · exact key _ _
  · exact key _ _

/-- C45: univariate arrays that are not NumPy arrays raise `ValueError` in the fast methods. -/
theorem C45_fast_namespace {m : Method} (hm : toAlgorithm env o.method = .ok m)
    (hf : m = .avl ∨ m = .mergesort) (he : o.exponent = 1)
    (hx : Univariate x.data) (hy : Univariate y.data) (hnx : x.ns = .other)
    (hny : y.ns = .other) : AllRaise env x y o .valueError := by
  apply allRaise_of_terms hm
  intro rv
  obtain ⟨v, hv⟩ := univariate_to1d hx
  obtain ⟨w, hw⟩ := univariate_to1d hy
  rcases hf with rfl | rfl <;>
  · simp only [dcovTerms, dcovTermsAvl, dcovTermsMergesort, fastTerms]
    rw [if_neg (not_not.2 he), hv, hw]
    simp [commonNs, hnx, hny]

/-- C45: compile modes a method does not have raise `NotImplementedError`: parallel compilation
for the fast methods, any forced compilation for the naive one. -/
theorem C45_compile_mode {m : Method} (hm : toAlgorithm env o.method = .ok m) :
    (m = .naive → o.compileMode = .compileCpu ∨ o.compileMode = .compileParallel →
      AllRaise env x y o .notImplementedError) ∧
    (m = .avl ∨ m = .mergesort → o.compileMode = .compileParallel → o.exponent = 1 →
      Univariate x.data → Univariate y.data → x.ns = .numpy ∨ y.ns = .numpy →
      AllRaise env x y o .notImplementedError) := by
  constructor
  · rintro rfl hc
    apply allRaise_of_terms hm
    intro rv
    simp only [dcovTerms, dcovTermsNaive]
    rw [if_pos (by rcases hc with h | h <;> simp [h])]
    rfl
  · intro hf hc he hx hy hns
    apply allRaise_of_terms hm
    intro rv
    obtain ⟨v, hv⟩ := univariate_to1d hx
    obtain ⟨w, hw⟩ := univariate_to1d hy
    have hns' : commonNs x.ns y.ns = .numpy := by
      unfold commonNs
      rw [if_neg]
      rintro ⟨h1, h2⟩
      rw [h1, h2] at hns
      simp at hns
    rcases hf with rfl | rfl <;>
    · simp only [dcovTerms, dcovTermsAvl, dcovTermsMergesort, fastTerms]
      rw [if_neg (not_not.2 he), hv, hw]
      simp [hns', hc, implsDict]

/-- C45: a method name is accepted exactly if its upper-case version is one of the four names;
otherwise every function raises `KeyError`. -/
theorem C45_method_names (s : String) (hs : o.method = .name s) :
    (env.upper s ∈ ["AUTO", "NAIVE", "AVL", "MERGESORT"] →
      ∃ m, toAlgorithm env o.method = .ok m) ∧
    (env.upper s ∉ ["AUTO", "NAIVE", "AVL", "MERGESORT"] →
      AllRaise env x y o .keyError) := by
  constructor
  · intro h
    rw [hs]
    simp only [toAlgorithm]
    simp only [List.mem_cons, List.not_mem_nil, or_false] at h
    split_ifs
    · exact ⟨_, rfl⟩
    · exact ⟨_, rfl⟩
    · exact ⟨_, rfl⟩
    · exact ⟨_, rfl⟩
    · tauto
  · intro h
    apply allRaise_of_method
    simp only [List.mem_cons, List.not_mem_nil, or_false, not_or] at h
    rw [hs]
    simp only [toAlgorithm]
    rw [if_neg h.1, if_neg h.2.1, if_neg h.2.2.1, if_neg h.2.2.2]

/-- C45: names and enumeration members are interchangeable. -/
theorem C45_names_are_members (env : Env) :
    (∀ s, env.upper s = "AUTO" → toAlgorithm env (.name s) = toAlgorithm env (.enum .auto)) ∧
    (∀ s, env.upper s = "NAIVE" → toAlgorithm env (.name s) = toAlgorithm env (.enum .naive)) ∧
    (∀ s, env.upper s = "AVL" → toAlgorithm env (.name s) = toAlgorithm env (.enum .avl)) ∧
    (∀ s, env.upper s = "MERGESORT" →
      toAlgorithm env (.name s) = toAlgorithm env (.enum .mergesort)) := by
  refine ⟨?_, ?_, ?_, ?_⟩ <;>
  · intro s h
    simp [toAlgorithm, h]

private theorem auto_no_valueError (hlen : x.shape0 = y.shape0) (rv : Bool) :
    (dcovTerms env .auto x y o.exponent o.compileMode rv).out ≠ .error .valueError := by
  simp only [dcovTerms, dcovTermsAuto]
  split_ifs with hc
  · obtain ⟨hns, hfast⟩ := hc
    simp only [canUseFastAlgorithm, Bool.and_eq_true, decide_eq_true_eq] at hfast
    obtain ⟨⟨⟨⟨hx, hy⟩, hnx⟩, hny⟩, he⟩ := hfast
    have aux : ∀ z : Arr, ∃ r, transformTo1d z.data = r ∧
        (r = .error .assertionError ∨ ∃ v : Vec1, r = .ok v ∧ v.n = z.shape0) := by
      intro z
      refine ⟨_, rfl, ?_⟩
      by_cases hz : Univariate z.data
      · obtain ⟨v, hv⟩ := univariate_to1d hz
        exact Or.inr ⟨v, hv, transformTo1d_n hv⟩
      · exact Or.inl (not_univariate_to1d hz)
    unfold dcovTermsAvl fastTerms
    rw [if_neg (not_not.2 he)]
    obtain ⟨_, rfl, hx1 | ⟨v, hv, hvn⟩⟩ := aux x
    · rw [hx1]; simp
    · obtain ⟨_, rfl, hy1 | ⟨w, hw, hwn⟩⟩ := aux y
      · rw [hv, hy1]; simp
      · rw [hv, hw, PyM.lift_ok_bind, PyM.lift_ok_bind, if_neg (not_not.2 hns)]
        have himpl : ∀ c, (∃ t, avlImpl env c x y v w rv = .ok t) ∨
            avlImpl env c x y v w rv = .error .typeError := by
          intro c
          by_cases ht : (c && notFloat64 x y) = true
          · right
            unfold avlImpl
            simp [ht]
          · rcases v with ⟨vn, v⟩
            rcases w with ⟨wn, w⟩
            have : vn = wn := by
              simp only at hvn hwn
              omega
            subst this
            have h3 : 3 < vn := by simp only at hvn; omega
            have hterms := avlTermsImpl_eq_permTerms c (env.argsort c) v w h3
            unfold avlImpl
            simp only [ht, if_false, gt_iff_lt, h3, not_true_eq_false, dite_true, Fin.cast_refl,
              id, hterms, Bool.false_eq_true]
            by_cases hdf : decimalWithFloat x y = true
            · right
              rw [if_pos hdf]
              rfl
            · left
              rw [if_neg hdf]
              exact ⟨_, rfl⟩
        cases hcm : implsDict o.compileMode with
        | none => simp
        | some l =>
          simp only
          generalize (o.compileMode == CompileMode.auto) = b
          clear hcm
          induction l with
          | nil => simp [tryImpls]
          | cons c l ih =>
            rcases himpl c with ⟨t, ht⟩ | ht
            · simp [tryImpls, ht]
            · cases b
              · simp [tryImpls, ht]
              · simp only [List.map_cons, tryImpls, ht, if_true]
                intro hcon
                apply ih
                exact hcon
  · unfold dcovTermsNaive
    by_cases h1 : o.compileMode ≠ .auto ∧ o.compileMode ≠ .noCompile
    · rw [if_pos h1]; simp
    · rw [if_neg h1]
      rcases computeDistances_cases env x y o.exponent with ⟨a, b, e, ha, hb⟩ | e | e
      · rw [PyM.bind_ok e]
        simp only
        rw [dif_pos (by omega)]
        split_ifs <;> simp
      · rw [PyM.bind_err e]; simp
      · rw [PyM.bind_err e]; simp

/-- C45: `'auto'` on samples of the same length never raises `ValueError`, for any exponent,
namespace, dtype, shape and compile mode. -/
theorem C45_auto_no_valueError (hm : toAlgorithm env o.method = .ok .auto)
    (hlen : x.shape0 = y.shape0) :
    ∀ r ∈ allOutcomes env x y o, r ≠ .error .valueError :=
  allOutcomes_ne hm (auto_no_valueError hlen) (by decide) (by decide)

/-- Instances of the hypotheses of C45. -/
example (v w : Fin 5 → ℝ) := C45_fast_exponent (env := stdEnv)
  (o := ⟨3 / 2, .enum .avl, .auto⟩) rfl (Or.inl rfl) (by norm_num) (npVec v) (npVec w)
example : ¬ Univariate (npMat (n := 4) (p := 2) fun i j => (i : ℝ) + j).data := by
  intro h; cases h
example : stdEnv.upper "mergeSort" = "MERGESORT" := by decide

/-! ### C44 -/

private theorem avl_mismatch (α : ℝ) (cm : CompileMode) (h : x.shape0 ≠ y.shape0) :
    ∃ e, e ≠ PyErr.undefinedBehaviour ∧
      ∀ rv, (dcovTermsAvl env x y α cm rv).out = .error e := by
  unfold dcovTermsAvl fastTerms
  by_cases he : α = 1
  swap
  · exact ⟨.valueError, by decide, fun rv => by rw [if_pos he]; rfl⟩
  simp only [he, ne_eq, not_true_eq_false, if_false]
  by_cases hx : Univariate x.data
  swap
  · exact ⟨.assertionError, by decide, fun rv => by rw [not_univariate_to1d hx]; rfl⟩
  obtain ⟨v, hv⟩ := univariate_to1d hx
  simp only [hv, PyM.lift_ok_bind]
  by_cases hy : Univariate y.data
  swap
  · exact ⟨.assertionError, by decide, fun rv => by rw [not_univariate_to1d hy]; rfl⟩
  obtain ⟨w, hw⟩ := univariate_to1d hy
  simp only [hw, PyM.lift_ok_bind]
  by_cases hns : commonNs x.ns y.ns = .numpy
  swap
  · exact ⟨.valueError, by decide, fun rv => by rw [if_pos hns]; rfl⟩
  simp only [hns, not_true_eq_false, if_false]
  have hne : v.n ≠ w.n := by rw [transformTo1d_n hv, transformTo1d_n hw]; exact h
  have himpl : ∀ c rv, avlImpl env c x y v w rv
      = .error (if (c && notFloat64 x y) = true then .typeError else .assertionError) := by
    intro c rv
    unfold avlImpl
    by_cases ht : (c && notFloat64 x y) = true
    · simp [ht]
    · simp only [ht, if_false, Bool.false_eq_true]
      by_cases h3 : v.n > 3
      · simp [h3, hne]
      · simp [h3]
  cases cm with
  | compileParallel => exact ⟨.notImplementedError, by decide, fun rv => rfl⟩
  | noCompile => exact ⟨.assertionError, by decide, fun rv => by simp [implsDict, tryImpls, himpl]⟩
  | compileCpu =>
    cases hf : notFloat64 x y with
    | true => exact ⟨.typeError, by decide, fun rv => by simp [implsDict, tryImpls, himpl, hf]⟩
    | false =>
      exact ⟨.assertionError, by decide, fun rv => by simp [implsDict, tryImpls, himpl, hf]⟩
  | auto =>
    refine ⟨.assertionError, by decide, fun rv => ?_⟩
    cases hf : notFloat64 x y with
    | true =>
      simp only [implsDict, List.map_cons, List.map_nil, tryImpls, himpl, hf, Bool.and_true,
        if_true, beq_self_eq_true, Bool.false_eq_true, if_false]
      rfl
    | false => simp [implsDict, tryImpls, himpl, hf]

/-- C44 for the methods naive, AVL and auto: if the numbers of observations differ, every function
raises one and the same exception, for all shapes, dtypes, exponents, libraries and compile modes.
The method mergesort does not have this property, see `C44_mergesort_longer_second`. -/
theorem C44_length_mismatch_partial {m : Method} (hm : toAlgorithm env o.method = .ok m)
    (hmm : m ≠ .mergesort) (h : x.shape0 ≠ y.shape0) :
    ∃ e, e ≠ PyErr.undefinedBehaviour ∧ AllRaise env x y o e := by
  have hnaive : ∃ e, e ≠ PyErr.undefinedBehaviour ∧
      ∀ rv, (dcovTermsNaive env x y o.exponent o.compileMode rv).out = .error e := by
    obtain ⟨e, he, hr⟩ := dcovTermsNaive_mismatch env x y o.exponent o.compileMode h
    refine ⟨e, ?_, hr⟩
    rintro rfl
    simp at he
  have key : ∃ e, e ≠ PyErr.undefinedBehaviour ∧
      ∀ rv, (dcovTerms env m x y o.exponent o.compileMode rv).out = .error e := by
    cases m with
    | mergesort => exact absurd rfl hmm
    | naive => exact hnaive
    | avl => exact avl_mismatch _ _ h
    | auto =>
      simp only [dcovTerms, dcovTermsAuto]
      by_cases hc : commonNs x.ns y.ns = .numpy ∧ canUseFastAlgorithm x y o.exponent = true
      · simp only [if_pos hc]; exact avl_mismatch _ _ h
      · simp only [if_neg hc]; exact hnaive
  obtain ⟨e, he, hr⟩ := key
  exact ⟨e, he, allRaise_of_terms hm hr⟩

/-- C44 fails for mergesort with a longer second sample: the surplus observations are silently
ignored and a number is returned. -/
theorem C44_mergesort_longer_second {m : ℕ} (hn : 0 < n) (hnm : n < m) (v : Fin n → ℝ)
    (w : Fin m → ℝ) (cm : CompileMode) (hcm : cm ≠ .compileParallel) :
    (distanceCovarianceSqr env (npVec v) (npVec w) ⟨1, .enum .mergesort, cm⟩).out
      = (distanceCovarianceSqr env (npVec v) (npVec fun i => w (Fin.castLE hnm.le i))
          ⟨1, .enum .mergesort, cm⟩).out ∧
    ∃ c : ℝ, (distanceCovarianceSqr env (npVec v) (npVec w) ⟨1, .enum .mergesort, cm⟩).out
      = .ok (.fin c) := by
  have e : (distanceCovarianceSqr env (npVec v) (npVec w) ⟨1, .enum .mergesort, cm⟩).out
      = (distanceCovarianceSqr env (npVec v) (npVec fun i => w (Fin.castLE hnm.le i))
          ⟨1, .enum .mergesort, cm⟩).out := by
    have himpl : ∀ c, mergesortImpl env c (npVec v) (npVec w) ⟨n, v⟩ ⟨m, w⟩ false
        = mergesortImpl env c (npVec v) (npVec fun i => w (Fin.castLE hnm.le i)) ⟨n, v⟩
          ⟨n, fun i => w (Fin.castLE hnm.le i)⟩ false := by
      intro c
      unfold mergesortImpl
      simp only [hnm.le, dite_true, le_refl]
      rfl
    have ht : dcovTermsMergesort env (npVec v) (npVec w) 1 cm false
        = dcovTermsMergesort env (npVec v) (npVec fun i => w (Fin.castLE hnm.le i)) 1 cm
          false := by
      unfold dcovTermsMergesort fastTerms
      simp only [npVec, transformTo1d, PyM.lift_ok_bind] at himpl ⊢
      simp only [himpl]
      rfl
    unfold distanceCovarianceSqr dcovSqr
    simp only [toAlgorithm, PyM.lift_ok_bind, dcovTerms, ht]
  refine ⟨e, ?_⟩
  rw [e]
  have hs : Supported env (npVec v) (npVec fun i => w (Fin.castLE hnm.le i))
      ⟨1, .enum .mergesort, cm⟩ (fun i (_ : Fin 1) => v i)
      (fun i (_ : Fin 1) => w (Fin.castLE hnm.le i)) :=
    ⟨npVec_holds _, npVec_holds _, .mergesort, rfl, rfl, rfl, rfl, hn, Or.inl rfl, hcm,
      fun _ => ⟨rfl, rfl⟩, rfl, rfl, fun h => by simp [npVec] at h⟩
  exact ⟨_, distanceCovarianceSqr_ok hs hn⟩

/-- C44, mergesort with a shorter second sample: uncompiled an `IndexError`; the compiled
implementation (the default) reads outside the array. -/
theorem C44_mergesort_shorter_second {m : ℕ} (hnm : m < n) (v : Fin n → ℝ) (w : Fin m → ℝ) :
    AllRaise env (npVec v) (npVec w) ⟨1, .enum .mergesort, .noCompile⟩ .indexError ∧
    AllRaise env (npVec v) (npVec w) ⟨1, .enum .mergesort, .auto⟩ .undefinedBehaviour := by
  have himpl : ∀ c rv, mergesortImpl env c (npVec v) (npVec w) ⟨n, v⟩ ⟨m, w⟩ rv
      = .error (if c then .undefinedBehaviour else .indexError) := by
    intro c rv
    have h1 : notFloat64 (npVec v) (npVec w) = false := rfl
    unfold mergesortImpl
    simp [h1, hnm]
  constructor
  · refine allRaise_of_terms rfl fun rv => ?_
    simp only [dcovTerms, dcovTermsMergesort, fastTerms]
    have h1 : commonNs (npVec v).ns (npVec w).ns = .numpy := rfl
    have h2 : transformTo1d (npVec v).data = .ok ⟨n, v⟩ := rfl
    have h3 : transformTo1d (npVec w).data = .ok ⟨m, w⟩ := rfl
    simp [h1, h2, h3, implsDict, tryImpls, himpl]
  · refine allRaise_of_terms rfl fun rv => ?_
    simp only [dcovTerms, dcovTermsMergesort, fastTerms]
    have h1 : commonNs (npVec v).ns (npVec w).ns = .numpy := rfl
    have h2 : transformTo1d (npVec v).data = .ok ⟨n, v⟩ := rfl
    have h3 : transformTo1d (npVec w).data = .ok ⟨m, w⟩ := rfl
    simp [h1, h2, h3, implsDict, tryImpls, himpl]

example : (npMat (n := 4) (p := 2) fun i j => (i : ℝ) + j).shape0
    ≠ (npVec (n := 3) fun i => (i : ℝ)).shape0 := by simp [Arr.shape0, npMat, npVec]
example (v : Fin 4 → ℝ) (w : Fin 6 → ℝ) :=
  C44_mergesort_longer_second (env := stdEnv) (by norm_num) (by norm_num) v w .auto (by decide)

end Dcor.Props

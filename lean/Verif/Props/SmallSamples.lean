/-
Properties C19 and C46: small samples in the unbiased estimators, and the fallback to uncompiled
code.
-/
import Verif.Proofs.Failures
import Verif.Props.Witness
import Mathlib.Tactic.FinCases

namespace Dcor.Props

open Finset

variable {n p q : ℕ} {env : Env} {x y : Arr} {o : Opts} {X : Fin n → Fin p → ℝ}
  {Y : Fin n → Fin q → ℝ}

/-! ### C46 -/

private theorem warns_lift {α β : Type} {m : PyM α} (f : α → Except PyErr β) :
    (m >>= fun a => PyM.lift (f a)).warns = m.warns := by
  rcases m with ⟨w, r⟩
  cases r with
  | ok a => show w ++ [] = w; simp
  | error e => rfl

private theorem dcovSqr_warns (m : Method) (α : ℝ) (cm : CompileMode) (b : Bool) :
    (dcovSqr env m x y α cm b).warns = (dcovTerms env m x y α cm false).warns :=
  warns_lift _

private theorem avl_warns {Xs Ys : Fin n → Fin 1 → ℝ} (hx : Holds x.data n 1 Xs)
    (hy : Holds y.data n 1 Ys) (hn : 3 < n) (hns : x.ns = .numpy ∨ y.ns = .numpy)
    (hd : x.dtype = .decimal ↔ y.dtype = .decimal) (rv : Bool) :
    (dcovTermsAvl env x y 1 .auto rv).warns
      = if x.dtype = .float64 ∧ y.dtype = .float64 then [] else [.fallbackAvl] := by
  have hns' : commonNs x.ns y.ns = .numpy := by
    unfold commonNs
    rw [if_neg]
    rintro ⟨h1, h2⟩
    rw [h1, h2] at hns
    simp at hns
  unfold dcovTermsAvl fastTerms
  simp only [ne_eq, not_true_eq_false, if_false, hx.to1d, hy.to1d, PyM.lift_ok_bind, hns']
  by_cases hf : x.dtype = .float64 ∧ y.dtype = .float64
  · obtain ⟨_, _, _, _, e, _⟩ := avlImpl_ok env true x y Xs Ys rv hn (fun _ => hf) hd
    rw [if_pos hf]
    simp [implsDict, tryImpls, e, PyM.pure]
  · have hbad : avlImpl env true x y ⟨n, fun i => Xs i 0⟩ ⟨n, fun i => Ys i 0⟩ rv
        = .error .typeError := by
      have : notFloat64 x y = true := by
        have := not_and_or.1 hf
        simpa [notFloat64] using this
      unfold avlImpl
      simp [this]
    obtain ⟨_, _, _, _, e, _⟩ := avlImpl_ok env false x y Xs Ys rv hn
      (fun h => by simp at h) hd
    rw [if_neg hf]
    simp only [implsDict, List.map_cons, List.map_nil, tryImpls, hbad, e, beq_self_eq_true,
      if_true]
    rfl

/-- C46 for the AVL method: whatever the two dtypes (but not `Decimal` and something
else, see `C46_mixed_decimal_fails`), with compile mode AUTO a univariate call returns the value that the uncompiled implementation returns, and one warning is issued exactly if
one of the arrays is not `float64`. For the method mergesort see the theorems below. -/
theorem C46_avl_fallback_partial {Xs Ys : Fin n → Fin 1 → ℝ} (hx : Holds x.data n 1 Xs)
    (hy : Holds y.data n 1 Ys) (hn : 3 < n) (hns : x.ns = .numpy ∨ y.ns = .numpy)
    (hd : x.dtype = .decimal ↔ y.dtype = .decimal) :
    (distanceCovarianceSqr env x y ⟨1, .enum .avl, .auto⟩).out
      = (distanceCovarianceSqr env x y ⟨1, .enum .avl, .noCompile⟩).out ∧
    (∃ c : ℝ, (distanceCovarianceSqr env x y ⟨1, .enum .avl, .auto⟩).out = .ok (.fin c)) ∧
    (distanceCovarianceSqr env x y ⟨1, .enum .avl, .auto⟩).warns
      = (if x.dtype = .float64 ∧ y.dtype = .float64 then [] else [.fallbackAvl]) ∧
    (uDistanceCovarianceSqr env x y ⟨1, .enum .avl, .auto⟩).out
      = (uDistanceCovarianceSqr env x y ⟨1, .enum .avl, .noCompile⟩).out ∧
    (∃ c : ℝ, (uDistanceCovarianceSqr env x y ⟨1, .enum .avl, .auto⟩).out = .ok (.fin c)) ∧
    (uDistanceCovarianceSqr env x y ⟨1, .enum .avl, .auto⟩).warns
      = (if x.dtype = .float64 ∧ y.dtype = .float64 then [] else [.fallbackAvl]) ∧
    (distanceStatsSqr env x y ⟨1, .enum .avl, .auto⟩).out
      = (distanceStatsSqr env x y ⟨1, .enum .avl, .noCompile⟩).out ∧
    (uDistanceStatsSqr env x y ⟨1, .enum .avl, .auto⟩).out
      = (uDistanceStatsSqr env x y ⟨1, .enum .avl, .noCompile⟩).out := by
  have h1 : Supported env x y ⟨1, .enum .avl, .auto⟩ Xs Ys :=
    ⟨hx, hy, .avl, rfl, rfl, rfl, rfl, hn, hns, by simp, fun h => by simp at h, hd⟩
  have h2 : Supported env x y ⟨1, .enum .avl, .noCompile⟩ Xs Ys :=
    ⟨hx, hy, .avl, rfl, rfl, rfl, rfl, hn, hns, by simp, fun h => by simp at h, hd⟩
  have hn0 : 0 < n := by omega
  have he1 : (⟨1, .enum .avl, .auto⟩ : Opts).exponent ≠ 0 := one_ne_zero
  have he2 : (⟨1, .enum .avl, .noCompile⟩ : Opts).exponent ≠ 0 := one_ne_zero
  refine ⟨?_, ⟨_, distanceCovarianceSqr_ok h1 hn0⟩, ?_, ?_,
    ⟨_, uDistanceCovarianceSqr_ok h1 hn he1⟩, ?_, ?_, ?_⟩
  · rw [distanceCovarianceSqr_ok h1 hn0, distanceCovarianceSqr_ok h2 hn0]
  · rw [← avl_warns (env := env) hx hy hn hns hd false]
    exact dcovSqr_warns .avl 1 .auto false
  · rw [uDistanceCovarianceSqr_ok h1 hn he1, uDistanceCovarianceSqr_ok h2 hn he2]
  · rw [← avl_warns (env := env) hx hy hn hns hd false]
    exact dcovSqr_warns .avl 1 .auto true
  · rw [distanceStatsSqr_ok h1 hn0, distanceStatsSqr_ok h2 hn0]
  · rw [uDistanceStatsSqr_ok h1 hn he1, uDistanceStatsSqr_ok h2 hn he2]

/-- C46: a sample of `Decimal`s cannot be combined with a sample of floats or fractions: every
function raises `TypeError`, with either method that accepts `Decimal`s and whether or not
compilation is attempted first. -/
theorem C46_mixed_decimal_fails {Xs Ys : Fin n → Fin 1 → ℝ} (hx : Holds x.data n 1 Xs)
    (hy : Holds y.data n 1 Ys) (hn : 3 < n) (hns : x.ns = .numpy ∨ y.ns = .numpy)
    (hd : x.dtype = .decimal) (hdy : y.dtype ≠ .decimal) (hdi : y.dtype ≠ .int64)
    (cm : CompileMode) (hcm : cm = .auto ∨ cm = .noCompile) :
    AllRaise env x y ⟨1, .enum .avl, cm⟩ .typeError ∧
    AllRaise env x y ⟨1, .enum .naive, cm⟩ .typeError := by
  have hmix : mixedDecimal x y = true := by
    unfold mixedDecimal
    rw [hd, beq_eq_false_iff_ne.2 hdy]; rfl
  have hdf : decimalWithFloat x y = true := by
    unfold decimalWithFloat decimalClash
    rw [hd, beq_eq_false_iff_ne.2 hdy, beq_eq_false_iff_ne.2 hdi]; rfl
  have hns' : commonNs x.ns y.ns = .numpy := by
    unfold commonNs
    rw [if_neg]
    rintro ⟨h1, h2⟩
    rw [h1, h2] at hns
    simp at hns
  constructor
  · refine allRaise_of_terms rfl fun rv => ?_
    have himpl : ∀ c, avlImpl env c x y ⟨n, fun i => Xs i 0⟩ ⟨n, fun i => Ys i 0⟩ rv
        = .error .typeError := by
      intro c
      unfold avlImpl
      by_cases ht : (c && notFloat64 x y) = true
      · simp [ht]
      · simp [ht, hn, hdf]
    simp only [dcovTerms, dcovTermsAvl, fastTerms, ne_eq, not_true_eq_false, if_false, hx.to1d,
      hy.to1d, PyM.lift_ok_bind, hns']
    rcases hcm with rfl | rfl
    · simp only [implsDict, List.map_cons, List.map_nil, tryImpls, himpl, beq_self_eq_true, if_true]
      rfl
    · simp [implsDict, tryImpls, himpl]
  · refine allRaise_of_terms rfl fun rv => ?_
    simp only [dcovTerms]
    unfold dcovTermsNaive
    rw [if_neg (by rcases hcm with h | h <;> simp [h]),
      PyM.bind_ok (computeDistances_ok env hx hy 1 fun _ => ⟨1, by simp⟩)]
    have hn0 : (n != 0) = true := by simp; omega
    simp only [dite_true, hmix, Bool.true_and, hn0, if_true]
    rfl

/-- Instance: five `Decimal`s and five floats. -/
example (v w : Fin 5 → ℝ) := C46_mixed_decimal_fails (env := stdEnv)
  (x := ⟨.numpy, .decimal, .vec 5 v⟩) (y := npVec w) (Holds.vec 5 v) (npVec_holds w) (by norm_num)
  (Or.inl rfl) rfl (by simp [npVec]) (by simp [npVec]) .auto (Or.inl rfl)

/-- C46 for mergesort: the same value as the uncompiled implementation for primitive dtypes, unless
`y` is integral and `x` is not. -/
theorem C46_mergesort_fallback_partial {Xs Ys : Fin n → Fin 1 → ℝ} (hx : Holds x.data n 1 Xs)
    (hy : Holds y.data n 1 Ys) (hn : 0 < n) (hns : x.ns = .numpy ∨ y.ns = .numpy)
    (hxo : x.dtype.isObject = false) (hyo : y.dtype.isObject = false)
    (hint : y.dtype = .int64 → x.dtype = .int64) :
    (distanceCovarianceSqr env x y ⟨1, .enum .mergesort, .auto⟩).out
      = (distanceCovarianceSqr env x y ⟨1, .enum .mergesort, .noCompile⟩).out ∧
    ∃ c : ℝ, (distanceCovarianceSqr env x y ⟨1, .enum .mergesort, .auto⟩).out = .ok (.fin c) := by
  have h1 : Supported env x y ⟨1, .enum .mergesort, .auto⟩ Xs Ys :=
    ⟨hx, hy, .mergesort, rfl, rfl, rfl, rfl, hn, hns, by simp, fun h => by simp at h, hxo, hyo,
      hint⟩
  have h2 : Supported env x y ⟨1, .enum .mergesort, .noCompile⟩ Xs Ys :=
    ⟨hx, hy, .mergesort, rfl, rfl, rfl, rfl, hn, hns, by simp, fun h => by simp at h, hxo, hyo,
      hint⟩
  refine ⟨?_, _, distanceCovarianceSqr_ok h1 hn⟩
  rw [distanceCovarianceSqr_ok h1 hn, distanceCovarianceSqr_ok h2 hn]

/-- C46 is false for mergesort: an object array of fractions as second sample makes every
function fail in every compile mode that runs the uncompiled implementation. -/
theorem C46_mergesort_object_fails (v w : Fin n → ℝ) (cm : CompileMode)
    (hcm : cm = .auto ∨ cm = .noCompile) :
    AllRaise env (npVec v) ⟨.numpy, .fraction, .vec n w⟩ ⟨1, .enum .mergesort, cm⟩
      .attributeError := by
  refine allRaise_of_terms rfl fun rv => ?_
  have h0 : mergesortImpl env true (npVec v) ⟨.numpy, .fraction, .vec n w⟩ ⟨n, v⟩ ⟨n, w⟩ rv
      = .error .typeError := by
    unfold mergesortImpl
    simp [notFloat64]
  have h1 : mergesortImpl env false (npVec v) ⟨.numpy, .fraction, .vec n w⟩ ⟨n, v⟩ ⟨n, w⟩ rv
      = .error .attributeError := by
    unfold mergesortImpl
    simp [DType.isObject, decimalWithFloat, decimalClash, npVec]
  have h2 : commonNs (npVec v).ns .numpy = .numpy := rfl
  have h3 : transformTo1d (npVec v).data = .ok ⟨n, v⟩ := rfl
  have h4 : transformTo1d (.vec n w) = .ok ⟨n, w⟩ := rfl
  simp only [dcovTerms, dcovTermsMergesort, fastTerms]
  rcases hcm with rfl | rfl
  · simp only [ne_eq, not_true_eq_false, if_false, h2, h3, h4, PyM.lift_ok_bind, implsDict,
      List.map_cons, List.map_nil, tryImpls, h0, h1, beq_self_eq_true, if_true]
    rfl
  · simp [h2, h3, h4, implsDict, tryImpls, h1]

private theorem sort_two {env : Env} {c : Bool} {i : Fin 2} :
    env.argsort c ![0, (1 : ℝ)] i = i := by
  have hm := env.argsort_monotone c ![0, (1 : ℝ)]
  have h01 := hm (show (0 : Fin 2) ≤ 1 by decide)
  have hinj := (env.argsort c ![0, (1 : ℝ)]).injective
  generalize env.argsort c ![0, (1 : ℝ)] = σ at *
  simp only at h01
  have hne : σ 0 ≠ σ 1 := fun h => by simpa using hinj h
  have hcase : ∀ k : Fin 2, k = 0 ∨ k = 1 := by decide
  have ha : σ 0 = 0 := by
    rcases hcase (σ 0) with h | h
    · exact h
    · exfalso
      have h1 : σ 1 = 0 := by
        rcases hcase (σ 1) with h' | h'
        · exact h'
        · exact absurd (h.trans h'.symm) hne
      rw [h, h1] at h01
      norm_num at h01
  have hb : σ 1 = 1 := by
    rcases hcase (σ 1) with h' | h'
    · exact absurd (ha.trans h'.symm) hne
    · exact h'
  fin_cases i
  · exact ha
  · exact hb

private theorem mergeLoop_two (wc : Fin 3 → Fin 4 → ℝ) (st : MergeState ℝ 2 4)
    (h0 : st.idx = 0) :
    ∃ cur ws, mergeLoop (fun a b : ℝ => decide (a ≥ b)) ![0, (1 : ℝ)] wc
      (fun i : Fin 2 => (i : ℕ)) 0 1 0 1 st = .ok (0, 2, ⟨cur, 1, ws, st.updates + 1⟩) := by
  unfold mergeLoop
  have hge : ((fun a b : ℝ => decide (a ≥ b)) 0 1) = false := by norm_num
  simp only [le_refl, and_self, if_true, rd, wr, h0]
  norm_num [Except.ok_bind']
  unfold mergeLoop
  norm_num

private theorem weightSums_two (w : Fin 2 → Fin 4 → ℝ) :
    ∃ a b, computeWeightSums (fun a b : ℝ => decide (a ≥ b)) ![0, (1 : ℝ)] w = .ok (a, b, 1) := by
  unfold computeWeightSums
  unfold mergePasses
  rw [if_pos (by norm_num)]
  have hw : weightsCumsum w (fun i : Fin 2 => (i : ℕ))
      = .ok (fun k v => ∑ t ∈ univ.filter (fun t : Fin 2 => t.val < k.val), w t v) := by
    unfold weightsCumsum
    rw [dif_pos (fun t => t.isLt)]
  rw [hw]
  simp only [Except.ok_bind']
  have hr : rangeStep 2 (2 * 1) = [0] := rfl
  rw [hr]
  simp only [List.foldlM_cons, List.foldlM_nil]
  obtain ⟨cur, ws, hl⟩ := mergeLoop_two
    (fun k v => ∑ t ∈ univ.filter (fun t : Fin 2 => t.val < k.val), w t v)
    ⟨fun _ => 0, 0, fun _ _ => 0, 0⟩ rfl
  have hp : ∃ cur' idx, mergePair (fun a b : ℝ => decide (a ≥ b)) ![0, (1 : ℝ)]
      (fun k v => ∑ t ∈ univ.filter (fun t : Fin 2 => t.val < k.val), w t v)
      (fun i : Fin 2 => (i : ℕ)) 1 ⟨fun _ => 0, 0, fun _ _ => 0, 0⟩ 0
      = .ok ⟨cur', idx, ws, 1⟩ := by
    unfold mergePair
    have e1 : min (0 + 1 - 1) (2 - 1) = 0 := rfl
    have e2 : min (0 + 1 + 1 - 1) (2 - 1) = 1 := rfl
    simp only [e1, e2, Nat.zero_add]
    rw [hl]
    simp [Except.ok_bind', copyRest, rd, wr, List.range_succ, Except.pure_eq]
  obtain ⟨cur', idx, hp⟩ := hp
  rw [hp]
  simp only [Except.ok_bind', Except.pure_eq]
  unfold mergePasses
  rw [if_neg (by norm_num)]
  exact ⟨_, _, rfl⟩

/-- C46 is false for mergesort also on primitive dtypes: a `float64` first and an `int64` second
sample. Both implementations fail with `TypeError` and two warnings are issued. -/
theorem C46_mergesort_int_fails (env : Env) :
    AllRaise env (npVec ![0, 1]) ⟨.numpy, .int64, .vec 2 ![0, 1]⟩ ⟨1, .enum .mergesort, .auto⟩
      .typeError ∧
    (distanceCovarianceSqr env (npVec ![0, 1]) ⟨.numpy, .int64, .vec 2 ![0, 1]⟩
      ⟨1, .enum .mergesort, .auto⟩).warns = [.fallbackMergesort, .fallbackMergesort] := by
  have h0 : ∀ c rv, mergesortImpl env c (npVec ![0, 1]) ⟨.numpy, .int64, .vec 2 ![0, 1]⟩
      ⟨2, ![0, 1]⟩ ⟨2, ![0, 1]⟩ rv = .error .typeError := by
    intro c rv
    unfold mergesortImpl
    cases c
    · obtain ⟨a, b, hw⟩ := weightSums_two
        (fun i => ![1, ![0, (1 : ℝ)] i, ![0, (1 : ℝ)] i, ![0, (1 : ℝ)] i * ![0, (1 : ℝ)] i])
      have ht : ∃ t, mergesortTermsImpl (fun a b : ℝ => decide (a ≥ b)) (env.argsort false)
          ![0, (1 : ℝ)] ![0, 1] = .ok (t, 1) := by
        unfold mergesortTermsImpl
        simp only [sort_two]
        unfold computeAijbijTerm
        simp only [hw, Except.ok_bind', Except.pure_eq, computeRowSums]
        exact ⟨_, rfl⟩
      obtain ⟨t, ht⟩ := ht
      simp [ht, npVec, DType.isObject, Except.ok_bind']
    · simp [notFloat64]
  have h2 : commonNs (npVec ![0, 1]).ns .numpy = .numpy := rfl
  have h3 : transformTo1d (npVec ![0, 1]).data = .ok ⟨2, ![0, 1]⟩ := rfl
  have h4 : transformTo1d (.vec 2 ![0, 1]) = .ok ⟨2, ![0, 1]⟩ := rfl
  have key : ∀ rv, dcovTerms env .mergesort (npVec ![0, 1]) ⟨.numpy, .int64, .vec 2 ![0, 1]⟩ 1
      .auto rv = ⟨[.fallbackMergesort, .fallbackMergesort], .error .typeError⟩ := by
    intro rv
    simp only [dcovTerms, dcovTermsMergesort, fastTerms]
    simp only [ne_eq, not_true_eq_false, if_false, h2, h3, h4, PyM.lift_ok_bind, implsDict,
      List.map_cons, List.map_nil, tryImpls, h0, beq_self_eq_true, if_true]
    rfl
  constructor
  · refine allRaise_of_terms rfl fun rv => ?_
    rw [key rv]
  · refine (dcovSqr_warns .mergesort 1 .auto false).trans ?_
    rw [key]

/-- The hypotheses of the two positive theorems hold for every sample, for instance with a
`Fraction` and an integer array. -/
example (v w : Fin 4 → ℝ) := C46_avl_fallback_partial (env := stdEnv)
  (x := ⟨.numpy, .fraction, .vec 4 v⟩) (y := ⟨.numpy, .int64, .vec 4 w⟩) (.vec 4 v) (.vec 4 w)
  (by norm_num) (Or.inl rfl)
example (v w : Fin 2 → ℝ) := C46_mergesort_fallback_partial (env := stdEnv)
  (x := ⟨.numpy, .int64, .vec 2 v⟩) (y := ⟨.numpy, .float32, .vec 2 w⟩) (.vec 2 v) (.vec 2 w)
  (by norm_num) (Or.inl rfl) rfl rfl (by simp)

/-! ### C19 -/

private theorem finDivZero {a : ℝ} (h : 0 ≤ a) :
    (FP.fin a / FP.fin 0 : FP ℝ) = if a = 0 then .nan else .pinf := by
  rw [FP.fin_div', if_pos rfl]
  unfold FP.infOfSign
  split_ifs with h1 h2
  · rfl
  · rfl
  · exact absurd (lt_of_le_of_ne h (Ne.symm h1)) h2

private theorem two_mul_pinf : (FP.fin 2 * FP.pinf : FP ℝ) = .pinf := by
  show FP.infOfSign (2 : ℝ) = .pinf
  unfold FP.infOfSign
  norm_num

private theorem combo_nan {F S T d1 d2 d3 : ℝ} (hF : 0 ≤ F) (hS : 0 ≤ S) (hT : 0 ≤ T)
    (h : (d3 = 0 ∧ T = 0) ∨ (d1 ≠ 0 ∧ d2 = 0 ∧ d3 = 0) ∨
      (d1 = 0 ∧ d2 = 0 ∧ (F ≠ 0 → S ≠ 0))) :
    (FP.fin F / FP.fin d1 - FP.fin 2 * (FP.fin S / FP.fin d2) + FP.fin T / FP.fin d3 : FP ℝ)
      = .nan := by
  rcases h with ⟨rfl, rfl⟩ | ⟨h1, rfl, rfl⟩ | ⟨rfl, rfl, h⟩
  · rw [finDivZero le_rfl, if_pos rfl, FP.add_nan]
  · rw [FP.fin_div _ h1, finDivZero hS, finDivZero hT]
    split_ifs
    · rw [FP.mul_nan, FP.sub_nan, FP.nan_add]
    · rw [FP.mul_nan, FP.sub_nan, FP.nan_add]
    · rw [FP.add_nan]
    · rw [two_mul_pinf]; rfl
  · rw [finDivZero hF, finDivZero hS]
    by_cases hF0 : F = 0
    · rw [if_pos hF0, FP.nan_sub, FP.nan_add]
    · rw [if_neg hF0, if_neg (h hF0), two_mul_pinf]
      exact FP.nan_add _

/-- NaN for at most three observations, if no Python number is divided by zero. -/
private theorem small_nan {core : CoreTerms ℝ n} {a b : Fin n → Fin n → ℝ}
    (hr : CoreRep core a b) (ha : ∀ i j, 0 ≤ a i j) (hb : ∀ i j, 0 ≤ b i j)
    (ha0 : ∀ i, a i i = 0) (k : NumKind) (hn : n ≤ 3)
    (hk : k = .python → n = 1 ∨ n = 2) :
    dcovFromTerms k .numpy .numpy core.meanProd core.aAxis core.aTotal core.bAxis core.bTotal true
      = .ok .nan := by
  have hA : ∀ i, 0 ≤ ∑ j, a i j := fun i => sum_nonneg fun j _ => ha i j
  have hB : ∀ i, 0 ≤ ∑ j, b i j := fun i => sum_nonneg fun j _ => hb i j
  have hm0 : 0 ≤ core.meanProd := by
    rw [hr.mean]
    exact sum_nonneg fun i _ => sum_nonneg fun j _ => mul_nonneg (ha i j) (hb i j)
  have hs0 : 0 ≤ ∑ i, core.aAxis i * core.bAxis i := by
    rw [hr.axis_prod]
    exact sum_nonneg fun i _ => mul_nonneg (hA i) (hB i)
  have hat : 0 ≤ core.aTotal := by
    rw [hr.aTot]; exact sum_nonneg fun i _ => hA i
  have hbt : 0 ≤ core.bTotal := by
    rw [hr.bTot]; exact sum_nonneg fun i _ => hB i
  have hms : core.meanProd ≠ 0 → ∑ i, core.aAxis i * core.bAxis i ≠ 0 := by
    intro h h'
    apply h
    rw [hr.mean]
    rw [hr.axis_prod] at h'
    apply sum_eq_zero
    intro i hi
    have h1 := (sum_eq_zero_iff_of_nonneg fun i _ => mul_nonneg (hA i) (hB i)).1 h' i hi
    rcases mul_eq_zero.1 h1 with h2 | h2
    · have h3 := (sum_eq_zero_iff_of_nonneg fun j _ => ha i j).1 h2
      exact sum_eq_zero fun j hj => by rw [h3 j hj, zero_mul]
    · have h3 := (sum_eq_zero_iff_of_nonneg fun j _ => hb i j).1 h2
      exact sum_eq_zero fun j hj => by rw [h3 j hj, mul_zero]
  have hnp : ∀ (a : FP ℝ) (d : ℤ), npDiv .numpy a d = .ok (a / .fin (d : ℝ)) := by
    intro a d; simp [npDiv]
  have hk0 : ∀ (a : FP ℝ) (d : ℤ), (k = .python → d ≠ 0) →
      npDiv k a d = .ok (a / .fin (d : ℝ)) := by
    intro a d h
    unfold npDiv
    rw [if_neg (fun hc => h hc.1 hc.2)]
  unfold dcovFromTerms
  rw [hk0 _ _ (fun h => by rcases hk h with rfl | rfl <;> decide)]
  simp only [Except.ok_bind', hnp, if_true]
  rw [hk0 _ _ (fun h => by rcases hk h with rfl | rfl <;> decide)]
  simp only [Except.ok_bind', Except.pure_eq]
  congr 1
  rcases Nat.eq_zero_or_pos n with h | h
  · subst h
    have e0 : (((0 : ℕ) : ℤ) : ℝ) = 0 := by norm_num
    have : core.meanProd = 0 := by rw [hr.mean]; simp
    rw [this, e0, finDivZero le_rfl, if_pos rfl, FP.nan_div, FP.nan_sub, FP.nan_add]
  · have hn0 : (n : ℝ) ≠ 0 := by positivity
    simp only [Int.cast_natCast, FP.fin_div _ hn0, FP.fin_mul, FP.fin_sum]
    have hsum : ∑ i, core.aAxis i / n * core.bAxis i = (∑ i, core.aAxis i * core.bAxis i) / n := by
      rw [sum_div]
      exact sum_congr rfl fun i _ => by ring
    rw [hsum]
    apply combo_nan (by positivity) (by positivity) (by positivity)
    have hcases : n = 1 ∨ n = 2 ∨ n = 3 := by omega
    rcases hcases with h | h | h
    · left
      subst h
      refine ⟨by norm_num, ?_⟩
      have : core.aTotal = 0 := by rw [hr.aTot]; simp [ha0]
      rw [this]
      simp
    · right; left
      subst h
      norm_num
    · right; right
      subst h
      refine ⟨by norm_num, by norm_num, ?_⟩
      intro hF
      have : core.meanProd ≠ 0 := fun h => hF (by rw [h]; simp)
      exact div_ne_zero (hms this) hn0

private theorem auto_small (hx : Holds x.data n p X) (hn : n ≤ 3) (α : ℝ) (cm : CompileMode)
    (rv : Bool) : dcovTerms env .auto x y α cm rv = dcovTerms env .naive x y α cm rv := by
  simp only [dcovTerms, dcovTermsAuto]
  rw [if_neg]
  rintro ⟨_, h⟩
  simp only [canUseFastAlgorithm, Bool.and_eq_true, decide_eq_true_eq, hx.shape0] at h
  omega

private theorem naive_terms (hx : Holds x.data n p X) (hy : Holds y.data n q Y) (α : ℝ)
    (cm : CompileMode) (hok : NaiveOk x y α cm) (rv : Bool) (hxo : x.dtype.isObject = false)
    (hyo : y.dtype.isObject = false) :
    ∃ core va vb, (dcovTermsNaive env x y α cm rv).out
        = .ok ⟨n, core, va, vb, ⟨.numpy, .numpy, .numpy, .numpy⟩⟩ ∧
      CoreRep core (Spec.distMat α X) (Spec.distMat α Y) ∧
      (rv = true → va = some (∑ i, ∑ j, Spec.distMat α X i j * Spec.distMat α X i j) ∧
        vb = some (∑ i, ∑ j, Spec.distMat α Y i j * Spec.distMat α Y i j)) := by
  obtain ⟨core, va, vb, k, e, h1, h2⟩ := dcovTermsNaive_ok env hx hy α cm rv hok
  refine ⟨core, va, vb, ?_, h1, h2⟩
  rw [e]
  have hk : k = ⟨.numpy, .numpy, .numpy, .numpy⟩ := by
    unfold dcovTermsNaive at e
    rw [if_neg (by rcases hok.1 with h | h <;> simp [h]),
      PyM.bind_ok (computeDistances_ok env hx hy α hok.2.1)] at e
    simp only [dite_true, mixedDecimal_false hok.2.2.2, Bool.false_and, Bool.false_eq_true,
      if_false, PyM.pure_out, Except.ok.injEq, Terms.mk.injEq] at e
    rw [← e.2.2.2.2]
    simp [objKind, hxo, hyo]
  rw [hk]

/-- C19 for the methods naive and auto: with at most three observations (also with none) the
unbiased estimators of floating point or integer samples return NaN. Missing for the full property:
mergesort (which raises, see below) and object arrays. -/
theorem C19_small_samples_partial {m : Method} (hm : toAlgorithm env o.method = .ok m)
    (hmm : m = .naive ∨ m = .auto) (hx : Holds x.data n p X) (hy : Holds y.data n q Y)
    (hn : n ≤ 3) (he : 0 < o.exponent) (hcm : o.compileMode = .auto ∨ o.compileMode = .noCompile)
    (hxo : x.dtype.isObject = false) (hyo : y.dtype.isObject = false) :
    (uDistanceCovarianceSqr env x y o).out = .ok .nan ∧
    (uDistanceCorrelationSqr env x y o).out = .ok .nan ∧
    (uDistanceStatsSqr env x y o).out = .ok ⟨.nan, .nan, .nan, .nan⟩ := by
  have hok : NaiveOk x y o.exponent o.compileMode := by
    refine ⟨hcm, ?_, he.le, decimal_iff_of_not_object hxo hyo⟩
    rintro (h | h)
    · rw [h] at hxo; simp [DType.isObject] at hxo
    · rw [h] at hyo; simp [DType.isObject] at hyo
  have hterm : ∀ rv, dcovTerms env m x y o.exponent o.compileMode rv
      = dcovTermsNaive env x y o.exponent o.compileMode rv := by
    intro rv
    rcases hmm with rfl | rfl
    · rfl
    · exact auto_small hx hn _ _ _
  have hpx : ∀ i j, 0 ≤ Spec.distMat o.exponent X i j := fun i j => Spec.dist_nonneg _ _ _
  have hpy : ∀ i j, 0 ≤ Spec.distMat o.exponent Y i j := fun i j => Spec.dist_nonneg _ _ _
  have hdx := Spec.distMat_diag he.ne' X
  have hdy := Spec.distMat_diag he.ne' Y
  have hstats : (statsSqr env m x y o.exponent o.compileMode true).out
      = .ok ⟨.nan, .nan, .nan, .nan⟩ := by
    obtain ⟨core, va, vb, e, hr, hv⟩ := naive_terms (env := env) hx hy o.exponent o.compileMode hok
      true hxo hyo
    obtain ⟨rfl, rfl⟩ := hv rfl
    unfold statsSqr
    rw [hterm, PyM.bind_ok e]
    simp only
    have hrx : CoreRep ⟨∑ i, ∑ j, Spec.distMat o.exponent X i j * Spec.distMat o.exponent X i j,
          core.aAxis, core.aTotal, core.aAxis, core.aTotal⟩
        (Spec.distMat o.exponent X) (Spec.distMat o.exponent X) := by
      obtain ⟨σ, h1, h2⟩ := hr.axes
      exact ⟨rfl, ⟨σ, h1, h1⟩, hr.aTot, hr.aTot⟩
    have hry : CoreRep ⟨∑ i, ∑ j, Spec.distMat o.exponent Y i j * Spec.distMat o.exponent Y i j,
          core.bAxis, core.bTotal, core.bAxis, core.bTotal⟩
        (Spec.distMat o.exponent Y) (Spec.distMat o.exponent Y) := by
      obtain ⟨σ, h1, h2⟩ := hr.axes
      exact ⟨rfl, ⟨σ, h2, h2⟩, hr.bTot, hr.bTot⟩
    have n1 := small_nan hr hpx hpy hdx .numpy hn (by simp)
    have n2 := small_nan hrx hpx hpx hdx .numpy hn (by simp)
    have n3 := small_nan hry hpy hpy hdy .numpy hn (by simp)
    simp only at n2 n3
    rw [n1, n2, n3]
    simp only [PyM.lift_ok_bind, mixedDecimal_false hok.2.2.2, Bool.false_and,
      Bool.false_eq_true, if_false, PyM.pure_out]
    have : ¬ (sqrtClip (FP.abs (FP.nan * FP.nan))).IsZero := fun h => h
    rw [if_neg this, FP.nan_div]
  refine ⟨?_, ?_, ?_⟩
  · obtain ⟨core, va, vb, e, hr, _⟩ := naive_terms (env := env) hx hy o.exponent o.compileMode hok
      false hxo hyo
    unfold uDistanceCovarianceSqr dcovSqr
    rw [hm, PyM.lift_ok_bind, hterm, PyM.bind_ok e]
    exact small_nan hr hpx hpy hdx .numpy hn (by simp)
  · unfold uDistanceCorrelationSqr
    rw [hm, PyM.lift_ok_bind, PyM.bind_ok hstats]
    rfl
  · unfold uDistanceStatsSqr
    rw [hm, PyM.lift_ok_bind, hstats]

/-- C19: the AVL method raises `AssertionError` for at most three observations, in all functions,
for all dtypes (compilation not forced). -/
theorem C19_avl_asserts {Xs Ys : Fin n → Fin 1 → ℝ} (hm : toAlgorithm env o.method = .ok .avl)
    (hx : Holds x.data n 1 Xs) (hy : Holds y.data n 1 Ys) (hn : n ≤ 3) (he : o.exponent = 1)
    (hns : x.ns = .numpy ∨ y.ns = .numpy)
    (hcm : o.compileMode = .auto ∨ o.compileMode = .noCompile) :
    AllRaise env x y o .assertionError := by
  refine allRaise_of_terms hm fun rv => ?_
  have hns' : commonNs x.ns y.ns = .numpy := by
    unfold commonNs
    rw [if_neg]
    rintro ⟨h1, h2⟩
    rw [h1, h2] at hns
    simp at hns
  have himpl : ∀ c, avlImpl env c x y ⟨n, fun i => Xs i 0⟩ ⟨n, fun i => Ys i 0⟩ rv
      = .error (if (c && notFloat64 x y) = true then .typeError else .assertionError) := by
    intro c
    unfold avlImpl
    by_cases ht : (c && notFloat64 x y) = true
    · simp [ht]
    · have h3 : ¬ (n > 3) := by omega
      simp [ht, h3]
  simp only [dcovTerms, dcovTermsAvl, fastTerms, he, ne_eq, not_true_eq_false, if_false, hx.to1d,
    hy.to1d, PyM.lift_ok_bind, hns']
  rcases hcm with h | h
  · cases hf : notFloat64 x y with
    | true =>
      simp only [h, implsDict, List.map_cons, List.map_nil, tryImpls, himpl, hf, Bool.and_true,
        if_true, beq_self_eq_true, Bool.false_eq_true, if_false]
      rfl
    | false => simp [h, implsDict, tryImpls, himpl, hf]
  · simp [h, implsDict, tryImpls, himpl]

/-- C19 is false for mergesort: with exactly three `float64` observations
`u_distance_covariance_sqr` raises `ZeroDivisionError`, whatever the samples, in every compile
mode. -/
theorem C19_mergesort_crashes (v w : Fin 3 → ℝ) (cm : CompileMode) (hcm : cm ≠ .compileParallel) :
    (uDistanceCovarianceSqr env (npVec v) (npVec w) ⟨1, .enum .mergesort, cm⟩).out
      = .error .zeroDivisionError := by
  have himpl : ∀ c, ∃ t ka kt kv, mergesortImpl env c (npVec v) (npVec w) ⟨3, v⟩ ⟨3, w⟩ false
      = .ok ⟨3, t, none, none, ⟨.python, ka, kt, kv⟩⟩ := by
    intro c
    obtain ⟨u, ht⟩ := mergesortTermsImpl_eq isGe_le (env.argsort c) v w (by norm_num)
    have h1 : (c && notFloat64 (npVec v) (npVec w)) = false := by cases c <;> rfl
    have h3 : ¬ ((npVec w).dtype = .int64 ∧ (npVec v).dtype ≠ .int64 ∧ u > 0) := by
      simp [npVec]
    have h4 : (npVec v).dtype.isObject = false := rfl
    have h5 : (npVec w).dtype.isObject = false := rfl
    have h6 : (c && (3 == 0)) = false := by cases c <;> rfl
    unfold mergesortImpl
    simp only [h1, h4, h5, h6, Bool.false_eq_true, if_false, le_refl, dite_true]
    simp only [ge_iff_le, Fin.castLE_rfl, id]
    rw [ht]
    simp only [Except.ok_bind', if_neg h3, Except.pure_eq]
    cases c
    · exact ⟨_, _, _, _, rfl⟩
    · exact ⟨_, _, _, _, rfl⟩
  have hterms : ∃ t ka kt kv, (dcovTermsMergesort env (npVec v) (npVec w) 1 cm false).out
      = .ok ⟨3, t, none, none, ⟨.python, ka, kt, kv⟩⟩ := by
    have h2 : commonNs (npVec v).ns (npVec w).ns = .numpy := rfl
    have h3 : transformTo1d (npVec v).data = .ok ⟨3, v⟩ := rfl
    have h4 : transformTo1d (npVec w).data = .ok ⟨3, w⟩ := rfl
    unfold dcovTermsMergesort fastTerms
    simp only [ne_eq, not_true_eq_false, if_false, h2, h3, h4, PyM.lift_ok_bind]
    obtain ⟨t, ka, kt, kv, e⟩ := himpl true
    obtain ⟨t', ka', kt', kv', e'⟩ := himpl false
    cases cm with
    | compileParallel => exact absurd rfl hcm
    | auto => exact ⟨t, ka, kt, kv, by simp [implsDict, tryImpls, e]⟩
    | compileCpu => exact ⟨t, ka, kt, kv, by simp [implsDict, tryImpls, e]⟩
    | noCompile => exact ⟨t', ka', kt', kv', by simp [implsDict, tryImpls, e']⟩
  obtain ⟨t, ka, kt, kv, e⟩ := hterms
  have : (dcovTerms env .mergesort (npVec v) (npVec w) 1 cm false).out
      = .ok ⟨3, t, none, none, ⟨.python, ka, kt, kv⟩⟩ := e
  unfold uDistanceCovarianceSqr dcovSqr
  simp only [toAlgorithm, PyM.lift_ok_bind]
  rw [PyM.bind_ok this]
  simp only [PyM.lift_out]
  unfold dcovFromTerms
  have h3 : ((3 : ℕ) : ℤ) ≠ 0 := by norm_num
  rw [npDiv_ok _ _ h3, npDiv_ok _ _ h3]
  simp only [Except.ok_bind', if_true]
  have hz : npDiv .python (FP.fin (t.meanProd / (((3 : ℕ) : ℤ) : ℝ))) (((3 : ℕ) : ℤ) - 3)
      = .error .zeroDivisionError := by
    unfold npDiv
    simp
  rw [hz]
  rfl

/-- C19 is false for object arrays too: with exactly three observations and `Fraction`s in one of
the samples at least, `u_distance_covariance_sqr` by the naive and the automatic method raises
`ZeroDivisionError`, whatever the samples. -/
theorem C19_fraction_crashes {X : Fin 3 → Fin p → ℝ} {Y : Fin 3 → Fin q → ℝ} {m : Method}
    (hm : toAlgorithm env o.method = .ok m) (hmm : m = .naive ∨ m = .auto)
    (hx : Holds x.data 3 p X) (hy : Holds y.data 3 q Y) (he : 0 < o.exponent)
    (hcm : o.compileMode = .auto ∨ o.compileMode = .noCompile)
    (hf : x.dtype = .fraction ∨ y.dtype = .fraction)
    (hxd : x.dtype ≠ .decimal) (hyd : y.dtype ≠ .decimal) :
    (uDistanceCovarianceSqr env x y o).out = .error .zeroDivisionError := by
  have hok : NaiveOk x y o.exponent o.compileMode :=
    ⟨hcm, fun h => absurd h (by simp [hxd, hyd]), he.le, by simp [hxd, hyd]⟩
  have hterm : dcovTerms env m x y o.exponent o.compileMode false
      = dcovTermsNaive env x y o.exponent o.compileMode false := by
    rcases hmm with rfl | rfl
    · rfl
    · exact auto_small hx le_rfl _ _ _
  obtain ⟨core, va, vb, k, e, -, -⟩ := dcovTermsNaive_ok env hx hy o.exponent o.compileMode false hok
  have hk : k = ⟨.python, .python, .python, .python⟩ := by
    unfold dcovTermsNaive at e
    rw [if_neg (by rcases hok.1 with h | h <;> simp [h]),
      PyM.bind_ok (computeDistances_ok env hx hy o.exponent hok.2.1)] at e
    simp only [dite_true, mixedDecimal_false hok.2.2.2, Bool.false_and, Bool.false_eq_true,
      if_false, PyM.pure_out, Except.ok.injEq, Terms.mk.injEq] at e
    rw [← e.2.2.2.2]
    rcases hf with h | h <;> simp [objKind, h, DType.isObject]
  subst hk
  unfold uDistanceCovarianceSqr dcovSqr
  rw [hm, PyM.lift_ok_bind, hterm, PyM.bind_ok e]
  simp only [PyM.lift_out]
  unfold dcovFromTerms
  have h3 : ((3 : ℕ) : ℤ) ≠ 0 := by norm_num
  rw [npDiv_ok _ _ h3, npDiv_ok _ _ h3]
  simp only [Except.ok_bind', if_true]
  have hz : npDiv .python (FP.fin (core.meanProd / (((3 : ℕ) : ℤ) : ℝ))) (((3 : ℕ) : ℤ) - 3)
      = .error .zeroDivisionError := by
    unfold npDiv
    simp
  rw [hz]
  rfl

/-- Three fractions and three points of the plane in floating point. -/
example (v : Fin 3 → ℝ) (w : Fin 3 → Fin 2 → ℝ) :=
  C19_fraction_crashes (env := stdEnv) (o := ⟨1, .enum .auto, .auto⟩)
    (x := ⟨.numpy, .fraction, .vec 3 v⟩) (y := npMat w) rfl (Or.inr rfl) (.vec 3 v)
    (npMat_holds w) one_pos (Or.inl rfl) (Or.inl rfl) (by simp) (by simp [npMat])

/-- Samples meeting the hypotheses of the first theorem: three points of the plane. -/
example (w : Fin 3 → Fin 1 → ℝ) := C19_small_samples_partial (env := stdEnv)
  (o := ⟨1, .enum .auto, .auto⟩) rfl (Or.inr rfl)
  (npMat_holds ![![0, 1], ![2, 5], ![(3 : ℝ), 3]]) (npMat_holds w) (by norm_num) one_pos
  (Or.inl rfl) rfl rfl

end Dcor.Props

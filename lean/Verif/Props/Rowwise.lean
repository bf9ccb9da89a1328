/-
Properties C47 and C48: `rowwise`.
-/
import Verif.Proofs.RowwiseLarge
import Verif.Props.Errors

namespace Dcor.Props

variable {env : Env} {o : Opts} {f : RowFn} {xs ys : List Arr} {mode : RowwiseMode} {l : List (FP ℝ)}

/-! ### C47 -/

/-- A call of `rowwise` that returned either used the optimised function or the loop. -/
private theorem rowwise_cases (h : (rowwise env f xs ys mode o).out = .ok l) :
    (∃ g, f.rowwiseFunction env = some g ∧ g xs ys o = .ok (some l)) ∨
      (rowwiseMap env f xs ys o).out = .ok l := by
  by_cases hm : mode = .naive
  · subst hm
    rw [rowwise_naive] at h
    exact .inr h
  cases hg : f.rowwiseFunction env with
  | none =>
    rw [rowwise_of_none hg] at h
    split_ifs at h
    · cases h
    · exact .inr h
  | some g =>
    rw [rowwise_of_function hg _ _ hm] at h
    cases hr : g xs ys o with
    | error e => rw [hr] at h; cases h
    | ok r =>
      rw [hr, PyM.lift_ok_bind] at h
      cases r with
      | some l' => cases h; exact .inl ⟨g, rfl, hr⟩
      | none =>
        dsimp only at h
        split_ifs at h
        · cases h
        · exact .inr h

private theorem length_of_optimized {g} (hg : f.rowwiseFunction env = some g)
    (hr : g xs ys o = .ok (some l)) (hl : xs.length = ys.length ∨ ys.length ≠ 1) :
    xs.length = ys.length := by
  rcases rowwiseFunction_length hg hr with h | h
  · exact h
  · exact hl.resolve_right (absurd h)

/-- C47 (partial: for the compile modes AUTO and NO_COMPILE, for samples of fewer than `2 ^ 21`
observations, and not for a list `y` with a single sample, which is reused for all the samples of `x`): if
`rowwise` returns, in any of its modes, it returns the values of the function on the pairs of samples. -/
theorem C47_rowwise_equals_map_partial (h : (rowwise env f xs ys mode o).out = .ok l)
    (hl : xs.length = ys.length ∨ ys.length ≠ 1)
    (hcm : o.compileMode = .auto ∨ o.compileMode = .noCompile)
    (hns : o.method = .enum .avl → ∀ a ∈ xs, a.ns = .numpy)
    (hN : ∀ a ∈ xs, a.shape0 < 2 ^ 21) :
    (xs.zip ys).map (fun p => (f.call env o p.1 p.2).out) = l.map .ok := by
  have key : List.Forall₂ (fun p r => (f.call env o p.1 p.2).out = .ok r) (xs.zip ys) l := by
    rcases rowwise_cases h with ⟨g, hg, hr⟩ | hr
    · obtain ⟨_, _, hcm', h3⟩ := rowwiseFunction_ok hg hr (length_of_optimized hg hr hl) hN
      have hauto : { o with compileMode := .auto } = o := by
        rcases hcm with hcm | hcm
        · rw [← hcm]
        · exact absurd hcm hcm'
      rw [hauto] at h3
      refine (forall₂_mem_left h3).imp ?_
      rintro ⟨a, b⟩ r ⟨hm, h4⟩
      exact h4 fun h5 => .inl (hns h5 _ (List.of_mem_zip hm).1)
    · exact mapM_pyM hr
  clear h hl hns
  generalize xs.zip ys = ps at key
  induction key with
  | nil => rfl
  | cons h1 _ ih => rw [List.map_cons, List.map_cons, ih, h1]

/-- C47 (partial: for samples of fewer than `2 ^ 21` observations, and not for a list `y` with a single
sample, which is reused for all the samples of `x`): if `rowwise` returns, in any of its modes and with any
compile mode, there is one value for each pair of samples, and it is the value of the function wherever that
returns, and otherwise its value in the default compile mode. -/
theorem C47_rowwise_agrees_partial (h : (rowwise env f xs ys mode o).out = .ok l)
    (hl : xs.length = ys.length ∨ ys.length ≠ 1) (hN : ∀ a ∈ xs, a.shape0 < 2 ^ 21) :
    List.Forall₂ (fun p r => (∀ v, (f.call env o p.1 p.2).out = .ok v → v = r) ∧
      (p.1.ns = .numpy → (f.call env o p.1 p.2).out = .ok r ∨
        (f.call env { o with compileMode := .auto } p.1 p.2).out = .ok r)) (xs.zip ys) l := by
  rcases rowwise_cases h with ⟨g, hg, hr⟩ | hr
  · obtain ⟨_, _, hcm, h3⟩ := rowwiseFunction_ok hg hr (length_of_optimized hg hr hl) hN
    refine h3.imp ?_
    rintro ⟨a, b⟩ r h4
    refine ⟨fun v hv => ?_, fun hns => .inr (h4 fun _ => .inl hns)⟩
    have h5 := h4 fun hm => call_avl_numpy hg hm hv
    dsimp only at h5 hv
    rw [call_auto hg hcm hv] at h5
    cases h5
    rfl
  · refine (mapM_pyM (f := fun p : Arr × Arr => f.call env o p.1 p.2) hr).imp ?_
    rintro ⟨a, b⟩ r h4
    exact ⟨fun v hv => by rw [h4] at hv; cases hv; rfl, fun _ => .inl h4⟩

/-- C47: `rowwise` does return for lists of floating point samples with the same number `n > 3` of scalar
observations (fewer than `2 ^ 21`), in the modes AUTO and OPTIMIZED and for all compile modes that allow
compilation. -/
theorem C47_optimized_returns {sx sy : List ℕ} {n : ℕ} (hf : ∀ g, f ≠ .other g)
    (hr : RowsOk f xs ys sx sy) (hn : 3 < n)
    (hN : n < 2 ^ 21) (hsx : sx = [n] ∨ sx = [n, 1]) (hsy : sy = [n] ∨ sy = [n, 1])
    (hdx : ∀ a ∈ xs, a.dtype = .float64 ∨ a.dtype = .float32)
    (hdy : ∀ a ∈ ys, a.dtype = .float64 ∨ a.dtype = .float32)
    (hl : xs.length = ys.length) (he : o.exponent = 1)
    (hm : o.method = .enum .auto ∨ o.method = .enum .avl) (hcm : o.compileMode ≠ .noCompile)
    (hmode : mode ≠ .naive) :
    ∃ l, rowwise env f xs ys mode o = PyM.pure l := by
  cases hg : f.rowwiseFunction env with
  | none => cases f with | other g => exact absurd rfl (hf g) | _ => cases hg
  | some g =>
    obtain ⟨l, h⟩ := rowwiseFunction_returns (env := env) hg hr hn hN hsx hsy hdx hdy hl he hm hcm
    refine ⟨l, ?_⟩
    rw [rowwise_of_function hg _ _ hmode, h, PyM.lift_ok_bind]

private theorem call_raises {a b : Arr} {e : PyErr} (hf : ∀ g, f ≠ .other g) (h : AllRaise env a b o e) :
    (f.call env o a b).out = .error e := by
  have key : ∀ m : PyM (FP ℝ), m.out.map (fun _ => ()) = Except.error e → m.out = .error e := by
    rintro ⟨w, r | r⟩ h
    · cases h; rfl
    · cases h
  cases f with
  | dcovSqr => exact key _ (h _ (by simp [allOutcomes, RowFn.call]))
  | uDcovSqr => exact key _ (h _ (by simp [allOutcomes, RowFn.call]))
  | dcov => exact key _ (h _ (by simp [allOutcomes, RowFn.call]))
  | dcorSqr => exact key _ (h _ (by simp [allOutcomes, RowFn.call]))
  | uDcorSqr => exact key _ (h _ (by simp [allOutcomes, RowFn.call]))
  | dcor => exact key _ (h _ (by simp [allOutcomes, RowFn.call]))
  | other g => exact absurd rfl (hf g)

/-- Two lists with one sample of five observations each. -/
private def exA : List Arr := [npVec ![0, 1, 3, 2, 2]]

private def exB : List Arr := [npVec ![1, 0, 4, 4, 7]]

private def exC : List Arr := [npVec ![0, 1, 3, 2, 2], npVec ![2, 7, 1, 8, 2]]

private theorem exRows (f : RowFn) : RowsOk f exA exB [5] [5] :=
  ⟨by simp [exA], by simp [exB], ⟨.inl rfl, by simp [exA, npVec, Arr.shape]⟩,
    ⟨.inl rfl, by simp [exB, npVec, Arr.shape]⟩, fun _ => rfl⟩

private theorem exRows' (f : RowFn) : RowsOk f exC exB [5] [5] :=
  ⟨by simp [exC], by simp [exB], ⟨.inl rfl, by simp [exC, npVec, Arr.shape]⟩,
    ⟨.inl rfl, by simp [exB, npVec, Arr.shape]⟩, fun _ => rfl⟩

example : ∃ l, rowwise stdEnv .uDcorSqr exA exB .optimized {} = PyM.pure l :=
  C47_optimized_returns (by simp) (exRows _) (n := 5) (by norm_num) (by norm_num) (.inl rfl) (.inl rfl)
    (by simp [exA, npVec]) (by simp [exB, npVec]) rfl rfl (.inl rfl) (by simp) (by simp)

example : ∃ l : List (FP ℝ), (exA.zip exB).map (fun p => (distanceCorrelation stdEnv p.1 p.2 {}).out)
    = l.map .ok := by
  obtain ⟨l, hl⟩ := C47_optimized_returns (env := stdEnv) (o := {}) (f := .dcor) (mode := .auto) (by simp)
    (exRows _) (n := 5)
    (by norm_num) (by norm_num) (.inl rfl) (.inl rfl) (by simp [exA, npVec])
    (by simp [exB, npVec]) rfl rfl (.inl rfl)
    (by simp) (by simp)
  exact ⟨l, C47_rowwise_equals_map_partial (f := .dcor) (o := {}) (congrArg PyM.out hl) (.inl rfl)
    (.inl rfl) (by simp) (by simp [exA, npVec, Arr.shape0])⟩

example : ∃ l : List (FP ℝ), List.Forall₂ (fun p r =>
    (∀ v, (distanceCovariance stdEnv p.1 p.2 ⟨1, .enum .avl, .compileCpu⟩).out = .ok v → v = r))
      (exA.zip exB) l := by
  obtain ⟨l, hl⟩ := C47_optimized_returns (env := stdEnv) (o := ⟨1, .enum .avl, .compileCpu⟩)
    (f := .dcov) (mode := .auto) (by simp) (exRows _) (n := 5)
    (by norm_num) (by norm_num) (.inl rfl) (.inl rfl) (by simp [exA, npVec])
    (by simp [exB, npVec]) rfl rfl (.inr rfl)
    (by simp) (by simp)
  exact ⟨l, (C47_rowwise_agrees_partial (f := .dcov) (congrArg PyM.out hl) (.inl rfl)
    (by simp [exA, npVec, Arr.shape0])).imp
    fun _ _ h => h.1⟩

/-- C47 fails for the compile mode COMPILE_PARALLEL: the function itself raises `NotImplementedError`
for every pair of samples, whereas `rowwise` returns. -/
theorem C47_parallel_only_rowwise {sx sy : List ℕ} {n : ℕ} (hf : ∀ g, f ≠ .other g)
    (hr : RowsOk f xs ys sx sy) (hn : 3 < n)
    (hN : n < 2 ^ 21) (hsx : sx = [n] ∨ sx = [n, 1]) (hsy : sy = [n] ∨ sy = [n, 1])
    (hdx : ∀ a ∈ xs, a.dtype = .float64 ∨ a.dtype = .float32)
    (hdy : ∀ a ∈ ys, a.dtype = .float64 ∨ a.dtype = .float32)
    (hns : ∀ a ∈ xs, a.ns = .numpy)
    (hl : xs.length = ys.length) (hmode : mode ≠ .naive) :
    (∃ l, rowwise env f xs ys mode { compileMode := .compileParallel } = PyM.pure l) ∧
      ∀ p ∈ xs.zip ys, (f.call env { compileMode := .compileParallel } p.1 p.2).out
        = .error .notImplementedError := by
  refine ⟨C47_optimized_returns hf hr hn hN hsx hsy hdx hdy hl rfl (.inl rfl) (by simp) hmode, ?_⟩
  rintro ⟨a, b⟩ hm
  obtain ⟨ha, hb⟩ := List.of_mem_zip hm
  obtain ⟨v, hv, _⟩ := to1d_of_shape (a := a) (n := n) (by rw [hr.x.shape a ha]; exact hsx)
  obtain ⟨w, hw, _⟩ := to1d_of_shape (a := b) (n := n) (by rw [hr.y.shape b hb]; exact hsy)
  have fa : a.FastSample := ⟨n, hn, by rw [hr.x.shape a ha]; exact hsx⟩
  have fb : b.FastSample := ⟨n, hn, by rw [hr.y.shape b hb]; exact hsy⟩
  have hns' : commonNs a.ns b.ns = .numpy := by
    rw [hns a ha]
    cases b.ns <;> rfl
  refine call_raises hf (allRaise_of_terms (m := .auto) rfl fun rv => ?_)
  simp only [dcovTerms, dcovTermsAuto]
  rw [if_pos ⟨hns', canUse_of_fast (o := {}) fa fb rfl⟩]
  simp only [dcovTermsAvl, fastTerms]
  rw [if_neg (by simp), hv, PyM.lift_ok_bind, hw, PyM.lift_ok_bind, if_neg (by simp [hns'])]
  rfl

example := C47_parallel_only_rowwise (env := stdEnv) (f := .dcov) (mode := .auto) (by simp) (exRows _)
  (n := 5) (by norm_num) (by norm_num) (.inl rfl) (.inl rfl) (by simp [exA, npVec]) (by simp [exB, npVec])
  (by simp [exA, npVec]) rfl (by simp)

/-- C47 fails when the list `y` has a single sample and `x` has several: the covariance functions
combine it with all the samples of `x`, instead of returning a single value as in the mode NAIVE. -/
theorem C47_single_sample_reused {sx sy : List ℕ} {n : ℕ} (hf : ∀ g, f ≠ .other g)
    (hc : f.isCorrelation = false) (hr : RowsOk f xs ys sx sy) (hn : 3 < n)
    (hN : n < 2 ^ 21) (hsx : sx = [n] ∨ sx = [n, 1]) (hsy : sy = [n] ∨ sy = [n, 1])
    (hdx : ∀ a ∈ xs, a.dtype = .float64 ∨ a.dtype = .float32)
    (hdy : ∀ a ∈ ys, a.dtype = .float64 ∨ a.dtype = .float32)
    (hx : 2 ≤ xs.length) (hy : ys.length = 1) (he : o.exponent = 1)
    (hm : o.method = .enum .auto ∨ o.method = .enum .avl) (hcm : o.compileMode ≠ .noCompile) :
    (∃ l, rowwise env f xs ys .auto o = PyM.pure l ∧ l.length = xs.length) ∧
      ∀ l, (rowwise env f xs ys .naive o).out = .ok l → l.length = 1 := by
  constructor
  · have nx := hr.nonempty_x
    have ny := hr.nonempty_y
    have fl : ∀ d, d = DType.float64 ∨ d = .float32 → d.isObject = false ∧ d ≠ .int64 := by
      rintro d (rfl | rfl) <;> decide
    have happ : CovApplies xs ys o := by
      refine ⟨?_, ?_, he, hm, hcm⟩
      · cases xs with
        | nil => exact absurd rfl nx
        | cons x xs => exact ⟨x, rfl, n, hn, by rw [hr.x.shape x (by simp)]; exact hsx⟩
      · cases ys with
        | nil => exact absurd rfl ny
        | cons y ys => exact ⟨y, rfl, n, hn, by rw [hr.y.shape y (by simp)]; exact hsy⟩
    have hcov : ∀ u, ∃ l, rowwiseDcovSqr env u xs ys o = .ok (some l) ∧ l.length = xs.length := by
      intro u
      rw [rowwiseDcovSqr_applies u happ]
      have dx := fl _ (joinDTypes_float (l := xs.map Arr.dtype) fun d hd => by
        obtain ⟨a, ha, rfl⟩ := List.mem_map.1 hd
        exact hdx a ha)
      have dy := fl _ (joinDTypes_float (l := ys.map Arr.dtype) fun d hd => by
        obtain ⟨a, ha, rfl⟩ := List.mem_map.1 hd
        exact hdy a ha)
      exact (rowwiseAvl_eval (env := env) (u := u) hr.x.shape hr.y.shape hsx hsy).2.2 hcm
        dx.1 dy.1 dx.2 (.inr hy) rfl hn hN
    cases f with
    | dcovSqr =>
      obtain ⟨l, h, hl⟩ := hcov false
      exact ⟨l, by rw [rowwise_of_function rfl _ _ (by simp), h, PyM.lift_ok_bind], hl⟩
    | uDcovSqr =>
      obtain ⟨l, h, hl⟩ := hcov true
      exact ⟨l, by rw [rowwise_of_function rfl _ _ (by simp), h, PyM.lift_ok_bind], hl⟩
    | dcov =>
      obtain ⟨l, h, hl⟩ := hcov false
      refine ⟨l.map sqrtClip, ?_, by simp [hl]⟩
      rw [rowwise_of_function rfl _ _ (by simp)]
      simp only [h, Except.map, Option.map_some]
      rw [PyM.lift_ok_bind]
    | dcorSqr => cases hc
    | uDcorSqr => cases hc
    | dcor => cases hc
    | other g => exact absurd rfl (hf g)
  · intro l h
    rw [rowwise_naive] at h
    have := (mapM_pyM (f := fun p : Arr × Arr => f.call env o p.1 p.2) h).length_eq
    rw [← this, List.length_zip]
    omega

example := C47_single_sample_reused (env := stdEnv) (o := {}) (f := .dcov) (by simp) rfl (exRows' _)
  (n := 5) (by norm_num) (by norm_num) (.inl rfl) (.inl rfl) (by simp [exC, npVec]) (by simp [exB, npVec])
  (by simp [exC]) rfl rfl (.inl rfl) (by simp)

/-- C47 fails for samples of `2 ^ 21` observations, unless one of them is constant: the compiled code
computes the cube of the number of observations with `int64` arithmetic and gets the wrong sign, so that
`rowwise` returns too small a value (twice the product of the mean distances too small). -/
theorem C47_large_samples_wrong {n : ℕ} (hn : n = 2 ^ 21) (v w : Fin n → ℝ) (hv : ∃ i j, v i ≠ v j)
    (hw : ∃ i j, w i ≠ w j) (hm : mode ≠ .naive) :
    ∃ r c, rowwise env .dcovSqr [npVec v] [npVec w] mode = PyM.pure [.fin r] ∧
      (distanceCovarianceSqr env (npVec v) (npVec w)).out = .ok (.fin c) ∧
      r = c - 2 * ((∑ i, ∑ j, |v i - v j|) / n ^ 2) * ((∑ i, ∑ j, |w i - w j|) / n ^ 2) ∧ r < c := by
  have h3 : 3 < n := by rw [hn]; norm_num
  have h0 : (0 : ℝ) < n := by exact_mod_cast (by omega : 0 < n)
  have hd : ∀ v : Fin n → ℝ, ∀ i j, Spec.distMat 1 (fun i (_ : Fin 1) => v i) i j = |v i - v j| := by
    intro v i j
    rw [Spec.distMat, Spec.dist, Real.rpow_one]
    simp [Real.sqrt_sq_eq_abs]
  have hpos : ∀ v : Fin n → ℝ, (∃ i j, v i ≠ v j) → 0 < (∑ i, ∑ j, |v i - v j|) / (n : ℝ) ^ 2 := by
    rintro v ⟨i, j, hij⟩
    refine div_pos ?_ (pow_pos h0 2)
    refine Finset.sum_pos' (fun _ _ => Finset.sum_nonneg fun _ _ => abs_nonneg _) ⟨i, Finset.mem_univ i, ?_⟩
    exact Finset.sum_pos' (fun _ _ => abs_nonneg _)
      ⟨j, Finset.mem_univ j, abs_pos.2 (sub_ne_zero.2 hij)⟩
  obtain ⟨aa, ba, h2, hk⟩ := rowKernel_terms (env := env) h3 false v w
  rw [compiled_pow21 hn (Spec.distMat_symm _ _) (Spec.distMat_symm _ _) h2] at hk
  simp only [hd] at hk
  refine ⟨_, _, ?_, distanceCovarianceSqr_ok (o := {}) (supported_row (o := {}) h3 (npVec_holds v)
    (npVec_holds w) rfl rfl rfl (.inl rfl) (by simp)) (by omega), rfl, ?_⟩
  · rw [rowwise_single h3 v w hm, hk]
    rfl
  · exact sub_lt_self _ (mul_pos (mul_pos two_pos (hpos v hv)) (hpos w hw))

/-- C47 fails for samples of `2 ^ 22` observations: the cube of the number of observations becomes zero in
`int64` arithmetic, and `rowwise` raises `ZeroDivisionError` although the function returns. -/
theorem C47_larger_samples_raise {n : ℕ} (hn : n = 2 ^ 22) (v w : Fin n → ℝ) (hm : mode ≠ .naive) :
    (rowwise env .dcovSqr [npVec v] [npVec w] mode).out = .error .zeroDivisionError ∧
      ∃ c, (distanceCovarianceSqr env (npVec v) (npVec w)).out = .ok c := by
  have h3 : 3 < n := by rw [hn]; norm_num
  refine ⟨?_, _, distanceCovarianceSqr_ok (o := {}) (supported_row (o := {}) h3 (npVec_holds v)
    (npVec_holds w) rfl rfl rfl (.inl rfl) (by simp)) (by omega)⟩
  obtain ⟨aa, ba, -, hk⟩ := rowKernel_terms (env := env) h3 false v w
  rw [compiled_pow22 hn] at hk
  rw [rowwise_single h3 v w hm, hk]
  rfl

/-- The observations `0, 1, 2, …`, and their squares. -/
example := C47_large_samples_wrong (env := stdEnv) (mode := .auto) rfl (fun i => (i : ℝ))
  (fun i => (i : ℝ) ^ 2) ⟨0, 1, by simp⟩ ⟨0, 1, by simp⟩ (by simp)

example := C47_larger_samples_raise (env := stdEnv) (mode := .auto) rfl (fun i => (i : ℝ))
  (fun i => (i : ℝ) ^ 2) (by simp)

/-! ### C48 -/

/-- The function without its row-wise implementation, as a user would wrap it in a `lambda`. -/
noncomputable def RowFn.plain (f : RowFn) (env : Env) (o : Opts) : RowFn := .other (f.call env o)

/-- C48: the mode NAIVE never uses the optimised implementation: the result is that for the same function
without it. -/
theorem C48_naive_ignores_optimized (f : RowFn) (xs ys : List Arr) (o : Opts) :
    rowwise env f xs ys .naive o = rowwise env (RowFn.plain f env o) xs ys .naive o := by
  rw [rowwise_naive, rowwise_naive]
  rfl

/-- C48: where the optimised implementation applies, OPTIMIZED does not raise `NotImplementedError`,
and the mode AUTO does the same. -/
theorem C48_optimized_used (h : OptimizedApplies f xs ys o) :
    (rowwise env f xs ys .optimized o).out ≠ .error .notImplementedError ∧
      rowwise env f xs ys .auto o = rowwise env f xs ys .optimized o := by
  cases hg : f.rowwiseFunction env with
  | none => cases f with | other g => exact absurd rfl (h.function g) | _ => cases hg
  | some g =>
    have := rowwiseFunction_applies (env := env) hg h
    rw [rowwise_of_function hg _ _ (by simp), rowwise_of_function hg _ _ (by simp)]
    cases hr : g xs ys o with
    | error e =>
      rw [hr] at this
      exact ⟨fun h => this.1 (by cases h; rfl), rfl⟩
    | ok r =>
      rw [hr] at this
      cases r with
      | none => exact absurd rfl this.2
      | some l => exact ⟨nofun, rfl⟩

/-- C48 (partial: for lists of samples that can be converted to arrays, see the failures below): OPTIMIZED
raises `NotImplementedError` exactly if the optimised implementation does not apply. -/
theorem C48_optimized_iff_partial {sx sy : List ℕ} (hr : RowsOk f xs ys sx sy) :
    (rowwise env f xs ys .optimized o).out = .error .notImplementedError
      ↔ ¬ OptimizedApplies f xs ys o := by
  constructor
  · intro h ha
    exact (C48_optimized_used ha).1 h
  · intro h
    cases hg : f.rowwiseFunction env with
    | none => rw [rowwise_of_none hg]; rfl
    | some g =>
      rw [rowwise_of_function hg _ _ (by simp), rowwiseFunction_declines hg hr h, PyM.lift_ok_bind]
      rfl

/-- C48 (partial: for lists of samples that can be converted to arrays, see the failures below): where the
optimised implementation does not apply, AUTO returns, raises and warns like the loop. -/
theorem C48_auto_falls_back_partial {sx sy : List ℕ} (hr : RowsOk f xs ys sx sy)
    (h : ¬ OptimizedApplies f xs ys o) :
    rowwise env f xs ys .auto o = rowwise env f xs ys .naive o := by
  rw [rowwise_naive]
  cases hg : f.rowwiseFunction env with
  | none => rw [rowwise_of_none hg]; rfl
  | some g =>
    rw [rowwise_of_function hg _ _ (by simp), rowwiseFunction_declines hg hr h, PyM.lift_ok_bind]
    rfl

private theorem exApplies : OptimizedApplies .dcor exA exB {} :=
  ⟨by simp, ⟨_, rfl, 5, by norm_num, .inl rfl⟩, ⟨_, rfl, 5, by norm_num, .inl rfl⟩, rfl, .inl rfl,
    by simp⟩

private theorem exNotApplies : ¬ OptimizedApplies .dcor exA exB { exponent := 1 / 2 } :=
  fun h => by have := h.exponent; norm_num at this

example := C48_optimized_used (env := stdEnv) exApplies
example := (C48_optimized_iff_partial (env := stdEnv) (exRows .dcor)).2 exNotApplies
example := C48_auto_falls_back_partial (env := stdEnv) (exRows .dcor) exNotApplies

private theorem call_supported {n : ℕ} {p q : ℕ} {a b : Arr} {X : Fin n → Fin p → ℝ} {Y : Fin n → Fin q → ℝ}
    (hf : ∀ g, f ≠ .other g) (h : Supported env a b o X Y) (hn : 3 < n) (he : o.exponent ≠ 0) :
    ∃ v, (f.call env o a b).out = .ok v := by
  cases f with
  | dcovSqr => exact ⟨_, distanceCovarianceSqr_ok h (by omega)⟩
  | uDcovSqr => exact ⟨_, uDistanceCovarianceSqr_ok h hn he⟩
  | dcov => exact ⟨_, distanceCovariance_ok h (by omega)⟩
  | dcorSqr => exact ⟨_, distanceCorrelationSqr_ok h (by omega)⟩
  | uDcorSqr => exact ⟨_, uDistanceCorrelationSqr_ok h hn he⟩
  | dcor => exact ⟨_, distanceCorrelation_ok h (by omega)⟩
  | other g => exact absurd rfl (hf g)

private theorem naive_returns (h : ∀ p ∈ xs.zip ys, ∃ v, (f.call env o p.1 p.2).out = .ok v) :
    ∃ l, (rowwise env f xs ys .naive o).out = .ok l := by
  rw [rowwise_naive]
  unfold rowwiseMap
  generalize xs.zip ys = ps at h ⊢
  induction ps with
  | nil => exact ⟨[], rfl⟩
  | cons p ps ih =>
    obtain ⟨l, hl⟩ := ih fun q hq => h q (by simp [hq])
    obtain ⟨v, hv⟩ := h p (by simp)
    exact ⟨v :: l, by rw [List.mapM_cons, PyM.bind_ok hv, PyM.bind_ok hl]; rfl⟩

/-- C48 fails for integers: for lists of integer samples with more than three scalar observations the
modes AUTO and OPTIMIZED raise `TypeError` (the results cannot be stored in an array of integers), although
the loop works. -/
theorem C48_integers_rejected {sx sy : List ℕ} {n : ℕ} (hf : ∀ g, f ≠ .other g)
    (hr : RowsOk f xs ys sx sy) (hn : 3 < n)
    (hsx : sx = [n] ∨ sx = [n, 1]) (hsy : sy = [n] ∨ sy = [n, 1])
    (hdx : ∀ a ∈ xs, a.dtype = .int64) (hdy : ∀ a ∈ ys, a.dtype = .int64)
    (hmode : mode ≠ .naive) :
    (rowwise env f xs ys mode).out = .error .typeError ∧
      ∃ l, (rowwise env f xs ys .naive).out = .ok l := by
  constructor
  · cases hg : f.rowwiseFunction env with
    | none => cases f with | other g => exact absurd rfl (hf g) | _ => cases hg
    | some g =>
      rw [rowwise_of_function hg _ _ hmode,
        rowwiseFunction_integers hg hr hn hn hsx hsy hdx hdy rfl (.inl rfl) (by simp)]
      rfl
  · refine naive_returns ?_
    rintro ⟨a, b⟩ hm
    obtain ⟨ha, hb⟩ := List.of_mem_zip hm
    obtain ⟨⟨n1, v⟩, hv, e1⟩ := to1d_of_shape (a := a) (n := n) (by rw [hr.x.shape a ha]; exact hsx)
    obtain ⟨⟨n2, w⟩, hw, e2⟩ := to1d_of_shape (a := b) (n := n) (by rw [hr.y.shape b hb]; exact hsy)
    simp only at e1 e2
    subst e1 e2
    obtain ⟨X, hX, _⟩ := to1d_holds hv
    obtain ⟨Y, hY, _⟩ := to1d_holds hw
    exact call_supported hf (supported_row (env := env) (o := {}) hn hX hY (by rw [hdx a ha]; rfl)
      (by rw [hdy b hb]; rfl) rfl (.inl rfl) (by simp)) hn (by simp)

/-- Two lists of one sample of integers. -/
private def exI : List Arr := [⟨.numpy, .int64, .vec 5 ![0, 1, 3, 2, 2]⟩]

example := C48_integers_rejected (env := stdEnv) (f := .dcov) (mode := .auto) (xs := exI) (ys := exI)
  (sx := [5]) (sy := [5]) (n := 5) (by simp)
  ⟨by simp [exI], by simp [exI], ⟨.inl rfl, by simp [exI, Arr.shape]⟩,
    ⟨.inl rfl, by simp [exI, Arr.shape]⟩, fun _ => rfl⟩ (by norm_num) (.inl rfl) (.inl rfl)
  (by simp [exI]) (by simp [exI]) (by simp)

/-- C48 fails for the correlation functions if not all the samples have the same shape, in particular if
the samples of `x` and those of `y` have different numbers of components: the modes AUTO and OPTIMIZED
raise `ValueError`, whatever the other arguments, although the loop works whenever the function works for
each pair of samples. -/
theorem C48_correlation_shapes_rejected {a b : Arr} (hf : f.isCorrelation = true) (ha : a ∈ xs ++ ys)
    (hb : b ∈ xs ++ ys) (h : a.shape ≠ b.shape) (hmode : mode ≠ .naive) :
    (rowwise env f xs ys mode o).out = .error .valueError ∧
      ((∀ p ∈ xs.zip ys, ∃ v, (f.call env o p.1 p.2).out = .ok v) →
        ∃ l, (rowwise env f xs ys .naive o).out = .ok l) := by
  refine ⟨?_, naive_returns⟩
  cases hg : f.rowwiseFunction env with
  | none => cases f with | other g => cases hf | _ => cases hg
  | some g =>
    rw [rowwise_of_function hg _ _ hmode, rowwiseFunction_shapes hg hf ha hb h]
    rfl

/-- One sample of points of the plane, with one sample of numbers. -/
example : (rowwise stdEnv .dcor [npMat ![![0, 1], ![2, 2], ![5, 1], ![0, 0]]] [npVec ![1, 0, 4, 4]]
      .auto).out = .error .valueError ∧
    ∃ l, (rowwise stdEnv .dcor [npMat ![![0, 1], ![2, 2], ![5, 1], ![0, 0]]] [npVec ![1, 0, 4, 4]]
      .naive).out = .ok l := by
  have := C48_correlation_shapes_rejected (env := stdEnv) (f := .dcor) (o := {}) (mode := .auto)
    (xs := [npMat ![![0, 1], ![2, 2], ![5, 1], ![0, 0]]]) (ys := [npVec ![1, 0, 4, 4]])
    (a := npMat ![![0, 1], ![2, 2], ![5, 1], ![0, 0]]) (b := npVec ![1, 0, 4, 4]) rfl (by simp) (by simp)
    (by simp [npMat, npVec, Arr.shape]) (by simp)
  refine ⟨this.1, this.2 ?_⟩
  simp only [List.zip_cons_cons, List.zip_nil_right, List.mem_singleton]
  rintro p rfl
  refine call_supported (n := 4) (by simp) (X := ![![0, 1], ![2, 2], ![5, 1], ![0, 0]])
    (Y := fun i (_ : Fin 1) => ![1, 0, 4, 4] i) ⟨npMat_holds _, npVec_holds _, .auto, rfl, ?_⟩ (by norm_num)
    (by simp)
  unfold CallOk
  dsimp only
  rw [if_neg (by norm_num)]
  exact ⟨.inl rfl, by simp [npMat, npVec], by norm_num, Iff.rfl⟩

/-- C48 fails if the optimised implementation applies to the first samples but the samples of one list
have different shapes: the modes AUTO and OPTIMIZED raise `ValueError`, although the loop works whenever
the function works for each pair of samples. -/
theorem C48_ragged_rejected {a b : Arr} (happ : OptimizedApplies f xs ys o)
    (hab : (a ∈ xs ∧ b ∈ xs) ∨ (a ∈ ys ∧ b ∈ ys)) (h : a.shape ≠ b.shape) (hmode : mode ≠ .naive) :
    (rowwise env f xs ys mode o).out = .error .valueError ∧
      ((∀ p ∈ xs.zip ys, ∃ v, (f.call env o p.1 p.2).out = .ok v) →
        ∃ l, (rowwise env f xs ys .naive o).out = .ok l) := by
  refine ⟨?_, naive_returns⟩
  cases hg : f.rowwiseFunction env with
  | none => cases f with | other g => exact absurd rfl (happ.function g) | _ => cases hg
  | some g =>
    rw [rowwise_of_function hg _ _ hmode, rowwiseFunction_ragged hg happ hab h]
    rfl

/-- Samples of five and of four observations. -/
example : (rowwise stdEnv .dcov [npVec ![0, 1, 3, 2, 2], npVec ![1, 0, 4, 4]]
      [npVec ![0, 1, 3, 2, 2], npVec ![1, 0, 4, 4]] .auto).out = .error .valueError ∧
    ∃ l, (rowwise stdEnv .dcov [npVec ![0, 1, 3, 2, 2], npVec ![1, 0, 4, 4]]
      [npVec ![0, 1, 3, 2, 2], npVec ![1, 0, 4, 4]] .naive).out = .ok l := by
  have := C48_ragged_rejected (env := stdEnv) (f := .dcov) (o := {}) (mode := .auto)
    (xs := [npVec ![0, 1, 3, 2, 2], npVec ![1, 0, 4, 4]])
    (ys := [npVec ![0, 1, 3, 2, 2], npVec ![1, 0, 4, 4]])
    (a := npVec ![0, 1, 3, 2, 2]) (b := npVec ![1, 0, 4, 4])
    ⟨by simp, ⟨_, rfl, 5, by norm_num, .inl rfl⟩, ⟨_, rfl, 5, by norm_num, .inl rfl⟩, rfl, .inl rfl,
      by simp⟩ (.inl ⟨by simp, by simp⟩) (by simp [npVec, Arr.shape]) (by simp)
  refine ⟨this.1, this.2 ?_⟩
  simp only [List.zip_cons_cons, List.zip_nil_right, List.mem_cons, List.not_mem_nil, or_false]
  rintro p (rfl | rfl)
  · exact call_supported (by simp) (supported_vec (n := 5) (by norm_num) _ _ .auto .auto (.inl rfl))
      (by norm_num) (by simp)
  · exact call_supported (by simp) (supported_vec (n := 4) (by norm_num) _ _ .auto .auto (.inl rfl))
      (by norm_num) (by simp)

end Dcor.Props

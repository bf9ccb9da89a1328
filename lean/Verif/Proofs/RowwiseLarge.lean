/-
The row-wise kernel for samples so large that the cube of their length is not an `int64`.
-/
import Verif.Proofs.RowwiseModes
import Verif.Props.Witness

namespace Dcor

variable {env : Env} {o : Opts}

theorem rowKernel_terms {n : ℕ} (hn : 3 < n) (u : Bool) (v w : Fin n → ℝ) :
    ∃ (aa ba : Fin n → ℝ),
      (∑ i, aa i * ba i = ∑ i, (∑ j, Spec.distMat 1 (fun i (_ : Fin 1) => v i) i j)
        * (∑ j, Spec.distMat 1 (fun i (_ : Fin 1) => w i) i j)) ∧
      rowKernel env u (⟨n, v⟩, ⟨n, w⟩) = dcovFromTermsCompiled
        (∑ i, ∑ j, Spec.distMat 1 (fun i (_ : Fin 1) => v i) i j
          * Spec.distMat 1 (fun i (_ : Fin 1) => w i) i j) aa
        (∑ i, ∑ j, Spec.distMat 1 (fun i (_ : Fin 1) => v i) i j) ba
        (∑ i, ∑ j, Spec.distMat 1 (fun i (_ : Fin 1) => w i) i j) u := by
  obtain ⟨core, va, vb, k, e, hr, -⟩ := avlImpl_ok env true
    ⟨.numpy, .float64, .vec n v⟩ ⟨.numpy, .float64, .vec n w⟩ (fun i (_ : Fin 1) => v i)
    (fun i (_ : Fin 1) => w i) false hn (fun _ => ⟨rfl, rfl⟩) Iff.rfl
  refine ⟨core.aAxis, core.bAxis, hr.axis_prod, ?_⟩
  unfold rowKernel
  dsimp only
  rw [e, Except.ok_bind']
  dsimp only
  rw [hr.mean, hr.aTot, hr.bTot]

theorem compiled_pow21 {n : ℕ} (h : n = 2 ^ 21) {a b : Fin n → Fin n → ℝ} (ha : Symm a) (hb : Symm b)
    {aa ba : Fin n → ℝ} (h2 : ∑ i, aa i * ba i = ∑ i, (∑ j, a i j) * (∑ j, b i j)) :
    dcovFromTermsCompiled (∑ i, ∑ j, a i j * b i j) aa (∑ i, ∑ j, a i j) ba (∑ i, ∑ j, b i j) false
      = .ok (.fin (Spec.dcovSqr a b
          - 2 * ((∑ i, ∑ j, a i j) / (n : ℝ) ^ 2) * ((∑ i, ∑ j, b i j) / (n : ℝ) ^ 2))) := by
  have hn : 0 < n := by rw [h]; norm_num
  have h0 : (n : ℤ) ≠ 0 := by positivity
  have h0' : (n : ℝ) ≠ 0 := by positivity
  have e2 : wrapInt64 ((n : ℤ) ^ 2) = (n : ℤ) ^ 2 := by rw [h]; decide
  have e3 : wrapInt64 ((n : ℤ) ^ 3) = -(n : ℤ) ^ 3 := by rw [h]; decide
  clear h
  rw [Spec.dcovSqr_eq_terms a b ha hb hn]
  unfold dcovFromTermsCompiled
  rw [e2, e3]
  simp only [npDiv_ok _ _ h0, Except.ok_bind', Int.cast_natCast, FP.fin_mul, FP.fin_div _ h0',
    FP.fin_sum, Bool.false_eq_true, if_false, npDiv_ok _ _ (pow_ne_zero 2 h0),
    npDiv_ok _ _ (neg_ne_zero.2 (pow_ne_zero 3 h0)), Except.pure_eq, FP.fin_sub, FP.fin_add]
  have : ∑ i, aa i / (n : ℝ) * ba i = (∑ i, (∑ j, a i j) * (∑ j, b i j)) / n := by
    rw [← h2, Finset.sum_div]
    exact Finset.sum_congr rfl fun _ _ => by ring
  rw [this]
  refine congrArg (fun t => Except.ok (FP.fin t)) ?_
  push_cast
  field_simp
  ring

theorem compiled_pow22 {n : ℕ} (h : n = 2 ^ 22) (mp aT bT : ℝ) (aa ba : Fin n → ℝ) :
    dcovFromTermsCompiled mp aa aT ba bT false = .error .zeroDivisionError := by
  have hn : 0 < n := by rw [h]; norm_num
  have h0 : (n : ℤ) ≠ 0 := by positivity
  have h0' : (n : ℝ) ≠ 0 := by positivity
  have e2 : wrapInt64 ((n : ℤ) ^ 2) = (n : ℤ) ^ 2 := by rw [h]; decide
  have e3 : wrapInt64 ((n : ℤ) ^ 3) = 0 := by rw [h]; decide
  unfold dcovFromTermsCompiled
  rw [e2, e3]
  simp only [npDiv_ok _ _ h0, Except.ok_bind', Int.cast_natCast, FP.fin_mul, FP.fin_div _ h0',
    FP.fin_sum, Bool.false_eq_true, if_false, npDiv_ok _ _ (pow_ne_zero 2 h0)]
  simp [npDiv, Bind.bind, Except.bind]

/-- The optimised implementation for a single pair of samples. -/
theorem rowwise_single {n : ℕ} (hn : 3 < n) (v w : Fin n → ℝ) {mode : RowwiseMode} (hm : mode ≠ .naive) :
    rowwise env .dcovSqr [npVec v] [npVec w] mode
      = PyM.lift (rowKernel env false (⟨n, v⟩, ⟨n, w⟩)) >>= fun r => PyM.pure [r] := by
  have happ : CovApplies [npVec v] [npVec w] {} :=
    ⟨⟨_, rfl, n, hn, .inl rfl⟩, ⟨_, rfl, n, hn, .inl rfl⟩, rfl, .inl rfl, by simp⟩
  have e : rowwiseAvl env [npVec v] [npVec w] false .auto
      = rowKernel env false (⟨n, v⟩, ⟨n, w⟩) >>= fun r => pure (some [r]) := by
    unfold rowwiseAvl
    rw [show checkHomogeneous [npVec v] = .ok () from rfl,
      show checkHomogeneous [npVec w] = .ok () from rfl,
      show rowVectors [npVec v] = .ok [⟨n, v⟩] from rfl,
      show rowVectors [npVec w] = .ok [⟨n, w⟩] from rfl]
    simp only [Except.ok_bind', reduceCtorEq, if_false]
    rw [show joinDTypes ([npVec v].map Arr.dtype) = .float64 from rfl,
      show joinDTypes ([npVec w].map Arr.dtype) = .float64 from rfl]
    rw [if_neg (by decide)]
    have hg : gufuncRows [⟨n, v⟩] [⟨n, w⟩] = .ok [(⟨n, v⟩, ⟨n, w⟩)] := by simp [gufuncRows]
    rw [hg, Except.ok_bind']
    rw [List.mapM_cons, List.mapM_nil]
    cases rowKernel env false (⟨n, v⟩, ⟨n, w⟩) <;> rfl
  rw [rowwise_of_function (g := rowwiseDcovSqr env false) rfl _ _ hm, rowwiseDcovSqr_applies false happ, e]
  cases rowKernel env false (⟨n, v⟩, ⟨n, w⟩) <;> rfl

end Dcor

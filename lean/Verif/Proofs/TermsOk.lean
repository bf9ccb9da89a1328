/-
Every supported call of every method produces terms that represent the two distance matrices.
-/
import Verif.Spec.Calls
import Verif.Proofs.FromTerms
import Verif.Proofs.MergeTerms

namespace Dcor

open Finset

theorem PyM.bind_ok {α β : Type} {m : PyM α} {f : α → PyM β} {a : α} (h : m.out = .ok a) :
    (m >>= f).out = (f a).out := by
  show (PyM.bind m f).out = _
  unfold PyM.bind
  rw [h]

theorem PyM.bind_err {α β : Type} {m : PyM α} {f : α → PyM β} {e : PyErr}
    (h : m.out = .error e) : (m >>= f).out = .error e := by
  show (PyM.bind m f).out = _
  unfold PyM.bind
  rw [h]

@[simp] theorem PyM.lift_out {α : Type} (m : Except PyErr α) : (PyM.lift m).out = m := rfl
@[simp] theorem PyM.pure_out {α : Type} (a : α) : (PyM.pure a).out = .ok a := rfl
@[simp] theorem PyM.throw_out {α : Type} (e : PyErr) : (PyM.throw e : PyM α).out = .error e := rfl

@[simp] theorem PyM.lift_ok_bind {α β : Type} (a : α) (f : α → PyM β) :
    (PyM.lift (.ok a) >>= f) = f a := by
  show PyM.bind _ f = _
  unfold PyM.bind PyM.lift
  simp

@[simp] theorem PyM.lift_err_bind {α β : Type} (e : PyErr) (f : α → PyM β) :
    (PyM.lift (.error e) >>= f) = PyM.throw e := rfl

@[simp] theorem PyM.throw_bind {α β : Type} (e : PyErr) (f : α → PyM β) :
    ((PyM.throw e : PyM α) >>= f) = PyM.throw e := rfl

@[simp] theorem PyM.pure_bind' {α β : Type} (a : α) (f : α → PyM β) :
    (PyM.pure a >>= f) = f a := by
  show PyM.bind _ f = _
  unfold PyM.bind PyM.pure
  simp

variable {n p q : ℕ}

theorem Holds.to2d {d : ArrData} {X : Fin n → Fin p → ℝ} (h : Holds d n p X) :
    transformTo2d d = .ok ⟨n, p, X⟩ := by
  cases h <;> rfl

theorem Holds.to1d {d : ArrData} {X : Fin n → Fin 1 → ℝ} (h : Holds d n 1 X) :
    transformTo1d d = .ok ⟨n, fun i => X i 0⟩ := by
  cases h <;> rfl

theorem Holds.shape0 {x : Arr} {X : Fin n → Fin p → ℝ} (h : Holds x.data n p X) :
    x.shape0 = n := by
  unfold Arr.shape0
  cases hd : x.data <;> rw [hd] at h <;> cases h <;> rfl

theorem Holds.isRV {x : Arr} {X : Fin n → Fin p → ℝ} (h : Holds x.data n p X) :
    isRandomVariable x = decide (p = 1) := by
  unfold isRandomVariable
  cases hd : x.data <;> rw [hd] at h <;> cases h <;> simp; rfl

theorem pdist_eq (env : Env) (ns : Namespace) (dt : DType) (X : Fin n → Fin p → ℝ) (α : ℝ)
    (hd : dt = .decimal → ∃ k : ℤ, α = k) :
    pdist env ns dt ⟨n, p, X⟩ α = .ok (Spec.distMat α X) := by
  unfold pdist
  split_ifs with h
  · congr 1
    funext i j
    simp only [pdistScipy, Spec.distMat]
    split_ifs with h1
    · subst h1; simp [Spec.dist]
    · rw [Spec.dist_eq_rpow]
  · unfold cdistNaive
    simp only [dite_true, Fin.cast_refl, id]
    have hf : ¬ naivePowerFails dt α := fun hf => hf.2 (hd hf.1)
    simp only [hf, if_false]
    show Except.ok _ = _
    congr 1
    funext i j
    unfold naivePower Spec.distMat
    rw [Spec.dist_symm, Spec.dist_eq_rpow]
    have hs : 0 ≤ ∑ c, (X j c - X i c) ^ 2 := sum_nonneg fun c _ => sq_nonneg _
    split_ifs with h1 h2
    · exact absurd h2 (not_lt.2 (Real.rpow_nonneg hs _))
    · rw [Real.sqrt_eq_rpow, ← Real.rpow_mul hs]
      congr 1
      ring
    · rfl

theorem computeDistances_ok (env : Env) {x y : Arr} {m : ℕ} {X : Fin n → Fin p → ℝ}
    {Y : Fin m → Fin q → ℝ} (hx : Holds x.data n p X) (hy : Holds y.data m q Y) (α : ℝ)
    (hd : (x.dtype = .decimal ∨ y.dtype = .decimal) → ∃ k : ℤ, α = k) :
    (computeDistances env x y α).out = .ok (⟨n, Spec.distMat α X⟩, ⟨m, Spec.distMat α Y⟩) := by
  unfold computeDistances
  have hc : ∃ u, (checkValidDcovExponent α).out = .ok u := by
    unfold checkValidDcovExponent
    split_ifs <;> exact ⟨_, rfl⟩
  obtain ⟨u, hu⟩ := hc
  rw [PyM.bind_ok hu]
  simp only [hx.to2d, hy.to2d, PyM.lift_ok_bind, pdist_eq env _ _ _ α (fun h => hd (Or.inl h)),
    pdist_eq env _ _ _ α (fun h => hd (Or.inr h)), PyM.pure_out]

theorem mixedDecimal_false {x y : Arr} (h : x.dtype = .decimal ↔ y.dtype = .decimal) :
    mixedDecimal x y = false := by
  unfold mixedDecimal
  by_cases hx : x.dtype = .decimal
  · rw [hx, h.1 hx]; rfl
  · have hy : y.dtype ≠ .decimal := fun hy => hx (h.2 hy)
    rw [beq_eq_false_iff_ne.2 hx, beq_eq_false_iff_ne.2 hy]; rfl

theorem decimalWithFloat_false {x y : Arr} (h : x.dtype = .decimal ↔ y.dtype = .decimal) :
    decimalWithFloat x y = false := by
  have := mixedDecimal_false h
  unfold mixedDecimal at this
  unfold decimalWithFloat decimalClash
  rw [this]; rfl

theorem decimal_iff_of_not_object {x y : Arr} (hx : x.dtype.isObject = false)
    (hy : y.dtype.isObject = false) : x.dtype = .decimal ↔ y.dtype = .decimal := by
  constructor <;> intro h
  · rw [h] at hx; simp [DType.isObject] at hx
  · rw [h] at hy; simp [DType.isObject] at hy

/-- What a successful terms computation returns. -/
def TermsOk (r : Except PyErr Terms) (n : ℕ) (a b : Fin n → Fin n → ℝ) (rv : Bool) : Prop :=
  ∃ core va vb k, r = .ok ⟨n, core, va, vb, k⟩ ∧ CoreRep core a b ∧
    (rv = true → va = some (∑ i, ∑ j, a i j * a i j) ∧ vb = some (∑ i, ∑ j, b i j * b i j))

theorem dcovTermsNaive_ok (env : Env) {x y : Arr} {X : Fin n → Fin p → ℝ}
    {Y : Fin n → Fin q → ℝ} (hx : Holds x.data n p X) (hy : Holds y.data n q Y) (α : ℝ)
    (cm : CompileMode) (rv : Bool) (hok : NaiveOk x y α cm) :
    TermsOk (dcovTermsNaive env x y α cm rv).out n (Spec.distMat α X) (Spec.distMat α Y) rv := by
  unfold dcovTermsNaive
  rw [if_neg (by rcases hok.1 with h | h <;> simp [h])]
  rw [PyM.bind_ok (computeDistances_ok env hx hy α hok.2.1)]
  simp only [dite_true, Fin.cast_refl, id, mixedDecimal_false hok.2.2.2, Bool.false_and,
    Bool.false_eq_true, if_false, PyM.pure_out]
  refine ⟨_, _, _, _, rfl, ⟨rfl, ⟨Equiv.refl _, fun _ => rfl, fun _ => rfl⟩, rfl, rfl⟩, ?_⟩
  intro h
  simp [h]

theorem varTerm_eq (hn : 0 < n) (x : Fin n → ℝ) :
    varTerm x = ∑ i, ∑ j, |x i - x j| * |x i - x j| := by
  have h0 : (n : ℝ) ≠ 0 := by positivity
  have h1 : ∀ i, ∑ j, |x i - x j| * |x i - x j|
      = (n : ℝ) * x i ^ 2 - 2 * x i * (∑ j, x j) + ∑ j, x j ^ 2 := by
    intro i
    have : ∀ j, |x i - x j| * |x i - x j| = x i ^ 2 - 2 * x i * x j + x j ^ 2 := by
      intro j; rw [abs_mul_abs_self]; ring
    simp only [this, sum_add_distrib, sum_sub_distrib, ← mul_sum, sum_const, card_univ,
      Fintype.card_fin, nsmul_eq_mul]
  simp only [h1, sum_add_distrib, sum_sub_distrib, ← mul_sum, ← sum_mul, sum_const, card_univ,
      Fintype.card_fin, nsmul_eq_mul]
  unfold varTerm npVar
  have h2 : ∀ i, (x i - (∑ j, x j) / (n : ℝ)) ^ 2
      = x i ^ 2 - 2 * x i * ((∑ j, x j) / (n : ℝ)) + ((∑ j, x j) / (n : ℝ)) ^ 2 := by
    intro i; ring
  simp only [h2, sum_add_distrib, sum_sub_distrib, ← mul_sum, ← sum_mul, sum_const, card_univ,
      Fintype.card_fin, nsmul_eq_mul]
  field_simp
  ring

theorem distMat_one (X : Fin n → Fin 1 → ℝ) (i j : Fin n) :
    Spec.distMat 1 X i j = |X i 0 - X j 0| := by
  have h : ∀ k, X k = fun _ => X k 0 := by
    intro k; funext c; rw [Subsingleton.elim c 0]
  unfold Spec.distMat
  rw [h i, h j, Spec.dist_one_scalar]

theorem avlImpl_ok (env : Env) (compiled : Bool) (x y : Arr) (X Y : Fin n → Fin 1 → ℝ)
    (rv : Bool) (hn : 3 < n)
    (hc : compiled = true → x.dtype = .float64 ∧ y.dtype = .float64)
    (hd : x.dtype = .decimal ↔ y.dtype = .decimal) :
    TermsOk (avlImpl env compiled x y ⟨n, fun i => X i 0⟩ ⟨n, fun i => Y i 0⟩ rv) n
      (Spec.distMat 1 X) (Spec.distMat 1 Y) rv := by
  have hA : Spec.distMat 1 X = fun i j => |X i 0 - X j 0| := by
    funext i j; exact distMat_one X i j
  have hB : Spec.distMat 1 Y = fun i j => |Y i 0 - Y j 0| := by
    funext i j; exact distMat_one Y i j
  have h1 : (compiled && notFloat64 x y) = false := by
    cases compiled
    · rfl
    · obtain ⟨h1, h2⟩ := hc rfl; simp [notFloat64, h1, h2]
  have ht := avlTermsImpl_eq_permTerms compiled (env.argsort compiled) (fun i => X i 0)
    (fun i => Y i 0) hn
  rw [permTerms_eq _ _ _ _ _ (env.argsort_monotone compiled _) (env.argsort_monotone compiled _)
    (env.argsort_monotone compiled fun i => Y (env.argsort compiled (fun i => X i 0) i) 0)] at ht
  have he : avlImpl env compiled x y ⟨n, fun i => X i 0⟩ ⟨n, fun i => Y i 0⟩ rv
      = (do
        let t ← avlTermsImpl compiled (env.argsort compiled) (fun i => X i 0) (fun i => Y i 0)
        pure {
          n := n
          core := t
          varA := if rv then some (varTerm fun i => X i 0) else none
          varB := if rv then some (varTerm fun i => Y i 0) else none
          kinds := if compiled then ⟨.python, .numpy, .python, .python⟩
               else ⟨objKind x y, objKind x y, objKind x y, objKind x y⟩ }) := by
    unfold avlImpl
    simp only [h1, Bool.false_eq_true, if_false, gt_iff_lt, hn, not_true_eq_false, dite_true,
      decimalWithFloat_false hd]
    rfl
  rw [he, ht]
  simp only [Except.ok_bind', Except.pure_eq]
  rw [hA, hB]
  refine ⟨_, _, _, _, rfl, ⟨rfl, ⟨Equiv.refl _, fun _ => rfl, fun _ => rfl⟩, rfl, rfl⟩, ?_⟩
  intro h
  simp only [h, if_true]
  rw [varTerm_eq (by omega), varTerm_eq (by omega)]
  exact ⟨rfl, rfl⟩

theorem mergesortImpl_ok (env : Env) (compiled : Bool) (x y : Arr) (X Y : Fin n → Fin 1 → ℝ)
    (rv : Bool) (hn : 0 < n)
    (hc : compiled = true → x.dtype = .float64 ∧ y.dtype = .float64)
    (hxo : x.dtype.isObject = false) (hyo : y.dtype.isObject = false)
    (hi : y.dtype = .int64 → x.dtype = .int64) :
    TermsOk (mergesortImpl env compiled x y ⟨n, fun i => X i 0⟩ ⟨n, fun i => Y i 0⟩ rv) n
      (Spec.distMat 1 X) (Spec.distMat 1 Y) rv := by
  have hA : Spec.distMat 1 X = fun i j => |X i 0 - X j 0| := by
    funext i j; exact distMat_one X i j
  have hB : Spec.distMat 1 Y = fun i j => |Y i 0 - Y j 0| := by
    funext i j; exact distMat_one Y i j
  have h1 : (compiled && notFloat64 x y) = false := by
    cases compiled
    · rfl
    · obtain ⟨h1, h2⟩ := hc rfl; simp [notFloat64, h1, h2]
  have h2 : (compiled && n == 0) = false := by
    have : (n == 0) = false := by simp; omega
    simp [this]
  have h3 : ∀ u : ℕ, ¬ (y.dtype = .int64 ∧ x.dtype ≠ .int64 ∧ u > 0) :=
    fun u h => h.2.1 (hi h.1)
  obtain ⟨u, ht⟩ := mergesortTermsImpl_eq isGe_le (env.argsort compiled) (fun i => X i 0)
    (fun i => Y i 0) hn
  rw [mergeSpecTerms_eq _ _ _ _ (env.argsort_monotone compiled _)
    (env.argsort_monotone compiled fun i => Y (env.argsort compiled (fun i => X i 0) i) 0)] at ht
  have he : mergesortImpl env compiled x y ⟨n, fun i => X i 0⟩ ⟨n, fun i => Y i 0⟩ rv
      = (do
        let t ← mergesortTermsImpl (fun a b : ℝ => decide (b ≤ a)) (env.argsort compiled)
          (fun i => X i 0) (fun i => Y i 0)
        pure {
          n := n
          core := t.1
          varA := if rv then some (varTerm fun i => X i 0) else none
          varB := if rv then some (varTerm fun i => Y i 0) else none
          kinds := if compiled then ⟨.python, .numpy, .python, .python⟩
               else ⟨.python, .numpy, .numpy, .numpy⟩ }) := by
    unfold mergesortImpl
    simp only [h1, h2, hxo, hyo, h3, Bool.false_eq_true, if_false, le_refl, dite_true,
      decimalWithFloat_false (decimal_iff_of_not_object hxo hyo), Bool.false_and]
    rfl
  rw [he, ht]
  simp only [Except.ok_bind', Except.pure_eq]
  rw [hA, hB]
  refine ⟨_, _, _, _, rfl, ⟨rfl, ⟨env.argsort compiled (fun i => X i 0), fun _ => rfl,
    fun _ => rfl⟩, rfl, rfl⟩, ?_⟩
  intro h
  simp only [h, if_true]
  rw [varTerm_eq hn, varTerm_eq hn]
  exact ⟨rfl, rfl⟩

theorem fastTerms_ok (w : Warn) (impl : Bool → Vec1 → Vec1 → Except PyErr Terms) {x y : Arr}
    {X Y : Fin n → Fin 1 → ℝ} (hx : Holds x.data n 1 X) (hy : Holds y.data n 1 Y)
    (cm : CompileMode) (rv : Bool) (hns : x.ns = .numpy ∨ y.ns = .numpy)
    (hcm : cm ≠ .compileParallel)
    (hcpu : cm = .compileCpu → x.dtype = .float64 ∧ y.dtype = .float64)
    (himpl : ∀ c, (c = true → x.dtype = .float64 ∧ y.dtype = .float64) →
      TermsOk (impl c ⟨n, fun i => X i 0⟩ ⟨n, fun i => Y i 0⟩) n
        (Spec.distMat 1 X) (Spec.distMat 1 Y) rv)
    (hbad : notFloat64 x y = true →
      impl true ⟨n, fun i => X i 0⟩ ⟨n, fun i => Y i 0⟩ = .error .typeError) :
    TermsOk (fastTerms w impl x y 1 cm).out n (Spec.distMat 1 X) (Spec.distMat 1 Y) rv := by
  have hns' : commonNs x.ns y.ns = .numpy := by
    unfold commonNs
    rw [if_neg]
    rintro ⟨h1, h2⟩
    rw [h1, h2] at hns
    simp at hns
  have hfalse := himpl false (fun h => absurd h (by simp))
  unfold fastTerms
  simp only [ne_eq, not_true_eq_false, if_false, hx.to1d, hy.to1d, PyM.lift_ok_bind, hns']
  cases cm with
  | compileParallel => exact absurd rfl hcm
  | noCompile =>
    obtain ⟨core, va, vb, k, e, h⟩ := hfalse
    refine ⟨core, va, vb, k, ?_, h⟩
    simp [implsDict, tryImpls, e]
  | compileCpu =>
    obtain ⟨core, va, vb, k, e, h⟩ := himpl true (fun _ => hcpu rfl)
    refine ⟨core, va, vb, k, ?_, h⟩
    simp [implsDict, tryImpls, e]
  | auto =>
    by_cases hf : notFloat64 x y = true
    · obtain ⟨core, va, vb, k, e, h⟩ := hfalse
      refine ⟨core, va, vb, k, ?_, h⟩
      simp only [implsDict, List.map_cons, List.map_nil, tryImpls, hbad hf, e, beq_self_eq_true,
        if_true]
      rfl
    · have hf' : x.dtype = .float64 ∧ y.dtype = .float64 := by
        simpa [notFloat64] using hf
      obtain ⟨core, va, vb, k, e, h⟩ := himpl true (fun _ => hf')
      refine ⟨core, va, vb, k, ?_, h⟩
      simp [implsDict, tryImpls, e]

theorem dcovTermsAvl_ok (env : Env) {x y : Arr} {X : Fin n → Fin p → ℝ}
    {Y : Fin n → Fin q → ℝ} (hx : Holds x.data n p X) (hy : Holds y.data n q Y) (α : ℝ)
    (cm : CompileMode) (rv : Bool) (hok : AvlOk x y n p q α cm) :
    TermsOk (dcovTermsAvl env x y α cm rv).out n (Spec.distMat α X) (Spec.distMat α Y) rv := by
  obtain ⟨rfl, rfl, rfl, hn, hns, hcm, hcpu, hd⟩ := hok
  apply fastTerms_ok _ _ hx hy cm rv hns hcm hcpu
  · intro c hc
    exact avlImpl_ok env c x y X Y rv hn hc hd
  · intro h
    unfold avlImpl
    simp [h]

theorem dcovTermsMergesort_ok (env : Env) {x y : Arr} {X : Fin n → Fin p → ℝ}
    {Y : Fin n → Fin q → ℝ} (hx : Holds x.data n p X) (hy : Holds y.data n q Y) (α : ℝ)
    (cm : CompileMode) (rv : Bool) (hok : MergesortOk x y n p q α cm) :
    TermsOk (dcovTermsMergesort env x y α cm rv).out n (Spec.distMat α X) (Spec.distMat α Y)
      rv := by
  obtain ⟨rfl, rfl, rfl, hn, hns, hcm, hcpu, hxo, hyo, hi⟩ := hok
  apply fastTerms_ok _ _ hx hy cm rv hns hcm hcpu
  · intro c hc
    exact mergesortImpl_ok env c x y X Y rv hn hc hxo hyo hi
  · intro h
    unfold mergesortImpl
    simp [h]

/-- Every supported call produces terms representing the distance matrices. -/
theorem dcovTerms_ok (env : Env) (m : Method) {x y : Arr} {X : Fin n → Fin p → ℝ}
    {Y : Fin n → Fin q → ℝ} (hx : Holds x.data n p X) (hy : Holds y.data n q Y) (α : ℝ)
    (cm : CompileMode) (rv : Bool) (hok : CallOk m x y n p q α cm) :
    TermsOk (dcovTerms env m x y α cm rv).out n (Spec.distMat α X) (Spec.distMat α Y) rv := by
  cases m with
  | naive => exact dcovTermsNaive_ok env hx hy α cm rv hok
  | avl => exact dcovTermsAvl_ok env hx hy α cm rv hok
  | mergesort => exact dcovTermsMergesort_ok env hx hy α cm rv hok
  | auto =>
    have hns : (commonNs x.ns y.ns = .numpy) ↔ (x.ns = .numpy ∨ y.ns = .numpy) := by
      unfold commonNs
      cases x.ns <;> cases y.ns <;> simp
    have hcond : (commonNs x.ns y.ns = .numpy ∧ canUseFastAlgorithm x y α = true) ↔
        (α = 1 ∧ p = 1 ∧ q = 1 ∧ 3 < n ∧ (x.ns = .numpy ∨ y.ns = .numpy)) := by
      unfold canUseFastAlgorithm
      rw [hns, hx.isRV, hy.isRV, hx.shape0, hy.shape0]
      simp only [Bool.and_eq_true, decide_eq_true_eq]
      tauto
    unfold CallOk at hok
    simp only [dcovTerms, dcovTermsAuto]
    by_cases hc : α = 1 ∧ p = 1 ∧ q = 1 ∧ 3 < n ∧ (x.ns = .numpy ∨ y.ns = .numpy)
    · simp only [hc] at hok
      rw [if_pos (hcond.2 hc)]
      simp at hok
      rw [← hc.1] at hok
      obtain ⟨h1, h2, h3, h4⟩ := hc
      subst h2 h3
      exact dcovTermsAvl_ok env hx hy α cm rv hok
    · rw [if_neg (fun h => hc (hcond.1 h))]
      simp only [if_neg hc] at hok
      exact dcovTermsNaive_ok env hx hy α cm rv hok

/-- Supported calls on `Decimal` arrays have integral exponents. -/
theorem Supported.decimal {env : Env} {x y : Arr} {o : Opts} {X : Fin n → Fin p → ℝ}
    {Y : Fin n → Fin q → ℝ} (h : Supported env x y o X Y) :
    (x.dtype = .decimal ∨ y.dtype = .decimal) → ∃ k : ℤ, o.exponent = k := by
  intro hd
  obtain ⟨_, _, m, _, hok⟩ := h
  have one : o.exponent = 1 → ∃ k : ℤ, o.exponent = k := fun e => ⟨1, by rw [e]; simp⟩
  cases m with
  | naive => exact hok.2.1 hd
  | avl => exact one hok.1
  | mergesort => exact one hok.1
  | auto =>
    simp only [CallOk] at hok
    split_ifs at hok
    · exact one hok.1
    · exact hok.2.1 hd

/-- Supported calls do not mix `Decimal` with another dtype. -/
theorem CallOk.decimal_iff {m : Method} {x y : Arr} {n p q : ℕ} {α : ℝ} {cm : CompileMode}
    (hok : CallOk m x y n p q α cm) : x.dtype = .decimal ↔ y.dtype = .decimal := by
  cases m with
  | naive => exact hok.2.2.2
  | avl => exact hok.2.2.2.2.2.2.2
  | mergesort => exact decimal_iff_of_not_object hok.2.2.2.2.2.2.2.1 hok.2.2.2.2.2.2.2.2.1
  | auto =>
    simp only [CallOk] at hok
    split_ifs at hok
    · exact hok.2.2.2.2.2.2.2
    · exact hok.2.2.2

/-- Supported calls have non-negative exponents. -/
theorem Supported.exponent_nonneg {env : Env} {x y : Arr} {o : Opts} {X : Fin n → Fin p → ℝ}
    {Y : Fin n → Fin q → ℝ} (h : Supported env x y o X Y) : 0 ≤ o.exponent := by
  obtain ⟨_, _, m, _, hok⟩ := h
  have one : o.exponent = 1 → 0 ≤ o.exponent := fun e => by rw [e]; exact zero_le_one
  cases m with
  | naive => exact hok.2.2.1
  | avl => exact one hok.1
  | mergesort => exact one hok.1
  | auto =>
    simp only [CallOk] at hok
    split_ifs at hok
    · exact one hok.1
    · exact hok.2.2.1

end Dcor

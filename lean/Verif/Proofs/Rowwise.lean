/-
Values of the optimised row-wise implementations.
-/
import Verif.Model.Rowwise
import Verif.Proofs.Failures
import Verif.Proofs.SpecAlg

namespace Dcor

open Finset

variable {env : Env} {o : Opts}

/-! ### Lists -/

instance : LawfulMonad PyM := LawfulMonad.mk'
  (id_map := by rintro α ⟨w, _ | _⟩ <;> simp [Functor.map, PyM.bind, PyM.pure])
  (pure_bind := fun x f => by simp [Pure.pure, Bind.bind, PyM.bind, PyM.pure])
  (bind_assoc := by
    rintro α β γ ⟨w, a | a⟩ f g
    · rfl
    · simp only [Bind.bind, PyM.bind]
      rcases f a with ⟨w', b | b⟩
      · rfl
      · simp [List.append_assoc])

theorem mapM_forall₂ {A B : Type} {f : A → Except PyErr B} :
    ∀ {l : List A} {r : List B}, l.mapM f = .ok r → List.Forall₂ (fun a b => f a = .ok b) l r
  | [], r, h => by
    rw [List.mapM_nil] at h
    cases h
    exact .nil
  | a :: l, r, h => by
    rw [List.mapM_cons] at h
    cases ha : f a with
    | error e => rw [ha] at h; cases h
    | ok b =>
      rw [ha, Except.ok_bind'] at h
      cases hl : l.mapM f with
      | error e => rw [hl] at h; cases h
      | ok bs =>
        rw [hl, Except.ok_bind'] at h
        cases h
        exact .cons ha (mapM_forall₂ hl)

theorem forall₂_mapM {A B : Type} {f : A → Except PyErr B} {l : List A} {r : List B}
    (h : List.Forall₂ (fun a b => f a = .ok b) l r) : l.mapM f = .ok r := by
  induction h with
  | nil => rfl
  | cons h _ ih => rw [List.mapM_cons, h, Except.ok_bind', ih, Except.ok_bind']; rfl

theorem mapM_pyM {A B : Type} {f : A → PyM B} :
    ∀ {l : List A} {r : List B}, (l.mapM f).out = .ok r →
      List.Forall₂ (fun a b => (f a).out = .ok b) l r
  | [], r, h => by
    rw [List.mapM_nil] at h
    cases h
    exact .nil
  | a :: l, r, h => by
    rw [List.mapM_cons] at h
    cases ha : (f a).out with
    | error e => rw [PyM.bind_err ha] at h; cases h
    | ok b =>
      rw [PyM.bind_ok ha] at h
      cases hl : (l.mapM f).out with
      | error e => rw [PyM.bind_err hl] at h; cases h
      | ok bs =>
        rw [PyM.bind_ok hl] at h
        cases h
        exact .cons ha (mapM_pyM hl)

theorem forall₂_zip_zip {A B C D : Type} {R : A → C → Prop} {S : B → D → Prop} {la : List A}
    {lc : List C} (h1 : List.Forall₂ R la lc) :
    ∀ {lb : List B} {ld : List D}, List.Forall₂ S lb ld →
      List.Forall₂ (fun p q => R p.1 q.1 ∧ S p.2 q.2) (la.zip lb) (lc.zip ld) := by
  induction h1 with
  | nil => intro lb ld _; simp
  | cons h _ ih =>
    intro lb ld h2
    cases h2 with
    | nil => simp
    | cons h' t' => exact .cons ⟨h, h'⟩ (ih t')

theorem forall₂_trans' {A B C : Type} {R : A → B → Prop} {S : B → C → Prop} {la : List A}
    {lb : List B} (h1 : List.Forall₂ R la lb) :
    ∀ {lc : List C}, List.Forall₂ S lb lc → List.Forall₂ (fun a c => ∃ b, R a b ∧ b ∈ lb ∧ S b c) la lc := by
  induction h1 with
  | nil => intro lc h; cases h; exact .nil
  | cons h t ih =>
    intro lc h2
    cases h2 with
    | cons h' t' =>
      refine .cons ⟨_, h, by simp, h'⟩ ((ih t').imp ?_)
      rintro a c ⟨b, r, m, s⟩
      exact ⟨b, r, by simp [m], s⟩

theorem forall₂_mem_left {A B : Type} {R : A → B → Prop} {la : List A} {lb : List B}
    (h : List.Forall₂ R la lb) : List.Forall₂ (fun a b => a ∈ la ∧ R a b) la lb := by
  induction h with
  | nil => exact .nil
  | cons h t ih =>
    exact .cons ⟨by simp, h⟩ (ih.imp fun a b h => ⟨by simp [h.1], h.2⟩)

/-! ### The kernel -/

theorem to1d_holds {d : ArrData} {v : Vec1} (h : transformTo1d d = .ok v) :
    ∃ X : Fin v.n → Fin 1 → ℝ, Holds d v.n 1 X ∧ v = ⟨v.n, fun i => X i 0⟩ := by
  unfold transformTo1d at h
  split at h
  · cases h
    exact ⟨_, .vec _ _, rfl⟩
  · cases h
    exact ⟨_, .mat _ _ _, rfl⟩
  · cases h
  · cases h

/-- The squared distance covariance, or its unbiased version. -/
noncomputable def Spec.covOf {n : ℕ} (u : Bool) (a b : Fin n → Fin n → ℝ) : ℝ :=
  if u then Spec.uDcovSqr a b else Spec.dcovSqr a b

theorem wrapInt64_of_lt {z : ℤ} (h0 : 0 ≤ z) (h : z < 2 ^ 63) : wrapInt64 z = z := by
  unfold wrapInt64
  rw [Int.bmod_def, Int.emod_eq_of_lt h0 (by norm_num at h ⊢; omega)]
  norm_num at h ⊢
  omega

theorem dcovFromTermsCompiled_eq {n : ℕ} (hN : n < 2 ^ 21) (meanProd : ℝ) (aAxis : Fin n → ℝ)
    (aTotal : ℝ) (bAxis : Fin n → ℝ) (bTotal : ℝ) (u : Bool) (hu : u = true → 3 < n) :
    dcovFromTermsCompiled meanProd aAxis aTotal bAxis bTotal u
      = dcovFromTerms .python .python .python meanProd aAxis aTotal bAxis bTotal u := by
  have hN' : (n : ℤ) < 2 ^ 21 := by exact_mod_cast hN
  have h0 : (0 : ℤ) ≤ n := Int.natCast_nonneg n
  unfold dcovFromTermsCompiled dcovFromTerms
  cases u
  · have e2 : wrapInt64 ((n : ℤ) ^ 2) = (n : ℤ) ^ 2 :=
      wrapInt64_of_lt (pow_nonneg h0 2) (lt_of_lt_of_le (pow_lt_pow_left₀ hN' h0 two_ne_zero) (by norm_num))
    have e3 : wrapInt64 ((n : ℤ) ^ 3) = (n : ℤ) ^ 3 :=
      wrapInt64_of_lt (pow_nonneg h0 3) (lt_of_lt_of_le (pow_lt_pow_left₀ hN' h0 three_ne_zero) (by norm_num))
    simp only [e2, e3, Bool.false_eq_true, if_false]
  · have h3 : (3 : ℤ) < n := by exact_mod_cast hu rfl
    have b : ((n : ℤ) - 2) * ((n : ℤ) - 3) < 2 ^ 21 * 2 ^ 21 :=
      mul_lt_mul'' (by linarith) (by linarith) (by linarith) (by linarith)
    have c0 : 0 ≤ ((n : ℤ) - 2) * ((n : ℤ) - 3) := mul_nonneg (by linarith) (by linarith)
    have e2 : wrapInt64 (((n : ℤ) - 2) * ((n : ℤ) - 3)) = ((n : ℤ) - 2) * ((n : ℤ) - 3) :=
      wrapInt64_of_lt c0 (lt_trans b (by norm_num))
    have e3 : wrapInt64 (((n : ℤ) - 1) * ((n : ℤ) - 2) * ((n : ℤ) - 3))
        = ((n : ℤ) - 1) * ((n : ℤ) - 2) * ((n : ℤ) - 3) := by
      rw [mul_assoc]
      refine wrapInt64_of_lt (mul_nonneg (by linarith) c0) ?_
      calc ((n : ℤ) - 1) * (((n : ℤ) - 2) * ((n : ℤ) - 3)) < 2 ^ 21 * (2 ^ 21 * 2 ^ 21) :=
            mul_lt_mul'' (by linarith) b (by linarith) c0
        _ = 2 ^ 63 := by norm_num
    simp only [e2, e3, if_true]

theorem rowKernel_eq {n : ℕ} (hN : n < 2 ^ 21) (u : Bool) (X Y : Fin n → Fin 1 → ℝ) :
    rowKernel env u (⟨n, fun i => X i 0⟩, ⟨n, fun i => Y i 0⟩)
      = if 3 < n then .ok (.fin (Spec.covOf u (Spec.distMat 1 X) (Spec.distMat 1 Y)))
        else .error .assertionError := by
  by_cases hn : 3 < n
  · rw [if_pos hn]
    obtain ⟨core, va, vb, k, e, hr, -⟩ := avlImpl_ok env true
      ⟨.numpy, .float64, .vec n fun i => X i 0⟩ ⟨.numpy, .float64, .vec n fun i => Y i 0⟩ X Y false hn
      (fun _ => ⟨rfl, rfl⟩) Iff.rfl
    unfold rowKernel
    dsimp only
    rw [e, Except.ok_bind']
    dsimp only
    rw [dcovFromTermsCompiled_eq hN _ _ _ _ _ _ fun _ => hn]
    cases u
    · exact biased_value (n := n) _ _ _ (by omega) (Spec.distMat_symm _ _) (Spec.distMat_symm _ _) hr.mean
        hr.axis_prod hr.aTot hr.bTot
    · exact unbiased_value _ _ _ hn (Spec.distMat_symm _ _) (Spec.distMat_symm _ _)
        (Spec.distMat_diag one_ne_zero _) (Spec.distMat_diag one_ne_zero _) hr.mean hr.axis_prod hr.aTot
        hr.bTot
  · rw [if_neg hn]
    unfold rowKernel avlImpl
    simp [hn, notFloat64, throw, throwThe, MonadExceptOf.throw]

/-- What the optimised implementation computes for one row. -/
def RowRel (env : Env) (u : Bool) (a b : Arr) (r : FP ℝ) : Prop :=
  ∃ v w, transformTo1d a.data = .ok v ∧ transformTo1d b.data = .ok w ∧ v.n = w.n ∧
    rowKernel env u (v, w) = .ok r

theorem to1d_shape0 {a : Arr} {v : Vec1} (h : transformTo1d a.data = .ok v) : v.n = a.shape0 := by
  unfold transformTo1d at h
  unfold Arr.shape0
  split at h
  · next e => cases h; rw [e]
  · next e => cases h; rw [e]
  · cases h
  · cases h

theorem RowRel.spec {u : Bool} {a b : Arr} {r : FP ℝ} (h : RowRel env u a b r)
    (hN : a.shape0 < 2 ^ 21) :
    ∃ n, ∃ X Y : Fin n → Fin 1 → ℝ, 3 < n ∧ Holds a.data n 1 X ∧ Holds b.data n 1 Y ∧
      r = .fin (Spec.covOf u (Spec.distMat 1 X) (Spec.distMat 1 Y)) := by
  obtain ⟨⟨n, v⟩, ⟨m, w⟩, ha, hb, e, hk⟩ := h
  obtain ⟨X, hX, eX⟩ := to1d_holds ha
  obtain ⟨Y, hY, eY⟩ := to1d_holds hb
  rw [← to1d_shape0 ha] at hN
  simp only at e hX hY eX eY X Y hN
  subst e
  rw [eX, eY, rowKernel_eq hN] at hk
  split_ifs at hk with hn
  cases hk
  exact ⟨n, X, Y, hn, hX, hY, rfl⟩

theorem RowRel.spec₃ {u : Bool} {a b : Arr} {r s t : FP ℝ} (h : RowRel env u a b r)
    (h' : RowRel env u a a s) (h'' : RowRel env u b b t) (hN : a.shape0 < 2 ^ 21) :
    ∃ n, ∃ X Y : Fin n → Fin 1 → ℝ, 3 < n ∧ Holds a.data n 1 X ∧ Holds b.data n 1 Y ∧
      r = .fin (Spec.covOf u (Spec.distMat 1 X) (Spec.distMat 1 Y)) ∧
      s = .fin (Spec.covOf u (Spec.distMat 1 X) (Spec.distMat 1 X)) ∧
      t = .fin (Spec.covOf u (Spec.distMat 1 Y) (Spec.distMat 1 Y)) := by
  obtain ⟨⟨n, v⟩, ⟨m, w⟩, ha, hb, e, hk⟩ := h
  obtain ⟨v', v'', ha', ha'', _, hk'⟩ := h'
  obtain ⟨w', w'', hb', hb'', _, hk''⟩ := h''
  obtain ⟨X, hX, eX⟩ := to1d_holds ha
  obtain ⟨Y, hY, eY⟩ := to1d_holds hb
  rw [← to1d_shape0 ha] at hN
  rw [ha] at ha' ha''
  rw [hb] at hb' hb''
  cases ha'
  cases ha''
  cases hb'
  cases hb''
  simp only at e hX hY eX eY X Y hN
  subst e
  rw [eX, eY, rowKernel_eq hN] at hk
  rw [eX, rowKernel_eq hN] at hk'
  rw [eY, rowKernel_eq hN] at hk''
  split_ifs at hk hk' hk'' with hn
  cases hk
  cases hk'
  cases hk''
  exact ⟨n, X, Y, hn, hX, hY, rfl, rfl, rfl⟩

/-! ### The loop over the rows -/

theorem foldl_joinDType_not_object (l : List DType) (d : DType) :
    (l.foldl joinDType d).isObject = false → d.isObject = false ∧ ∀ e ∈ l, e.isObject = false := by
  induction l generalizing d with
  | nil => intro h; exact ⟨h, by simp⟩
  | cons a l ih =>
    intro h
    obtain ⟨h1, h2⟩ := ih _ h
    have : d.isObject = false ∧ a.isObject = false := by
      revert h1
      cases d <;> cases a <;> decide
    refine ⟨this.1, ?_⟩
    simp only [List.mem_cons]
    rintro e (rfl | he)
    · exact this.2
    · exact h2 e he

theorem joinDTypes_not_object {l : List DType} (h : (joinDTypes l).isObject = false) :
    ∀ e ∈ l, e.isObject = false := by
  cases l with
  | nil => simp
  | cons a l =>
    obtain ⟨h1, h2⟩ := foldl_joinDType_not_object l a h
    simp only [List.mem_cons]
    rintro e (rfl | he)
    · exact h1
    · exact h2 e he

theorem rowwiseAvl_ok {xs ys : List Arr} {u : Bool} {cm : CompileMode} {l : List (FP ℝ)}
    (h : rowwiseAvl env xs ys u cm = .ok (some l)) (hl : xs.length = ys.length) :
    cm ≠ .noCompile ∧ (∀ a ∈ xs, a.dtype.isObject = false) ∧ (∀ a ∈ ys, a.dtype.isObject = false) ∧
      List.Forall₂ (fun p r => RowRel env u p.1 p.2 r) (xs.zip ys) l := by
  unfold rowwiseAvl at h
  cases h1 : checkHomogeneous xs with
  | error e => rw [h1] at h; cases h
  | ok _ =>
  rw [h1, Except.ok_bind'] at h
  cases h2 : checkHomogeneous ys with
  | error e => rw [h2] at h; cases h
  | ok _ =>
  rw [h2, Except.ok_bind'] at h
  cases h3 : rowVectors xs with
  | error e => rw [h3] at h; cases h
  | ok xv =>
  rw [h3, Except.ok_bind'] at h
  cases h4 : rowVectors ys with
  | error e => rw [h4] at h; cases h
  | ok yv =>
  rw [h4, Except.ok_bind'] at h
  by_cases hcm : cm = .noCompile
  · rw [if_pos hcm] at h; cases h
  rw [if_neg hcm] at h
  dsimp only at h
  by_cases hd : ((joinDTypes (xs.map Arr.dtype)).isObject || (joinDTypes (ys.map Arr.dtype)).isObject
      || joinDTypes (xs.map Arr.dtype) == .int64) = true
  · rw [if_pos hd] at h; cases h
  rw [if_neg hd] at h
  simp only [Bool.or_eq_true, not_or, Bool.not_eq_true] at hd
  have hx := joinDTypes_not_object hd.1.1
  have hy := joinDTypes_not_object hd.1.2
  have f3 := mapM_forall₂ h3
  have f4 := mapM_forall₂ h4
  have hl' : xv.length = yv.length := by rw [← f3.length_eq, ← f4.length_eq, hl]
  unfold gufuncRows at h
  rw [if_pos hl'] at h
  dsimp only at h
  by_cases ha : ((xv.zip yv).all fun p => p.1.n == p.2.n) = true
  · rw [if_pos ha] at h
    change (((xv.zip yv).mapM (rowKernel env u)) >>= fun res => pure (some res)) = _ at h
    cases h5 : (xv.zip yv).mapM (rowKernel env u) with
    | error e => rw [h5] at h; cases h
    | ok res =>
      rw [h5] at h
      cases h
      refine ⟨hcm, fun a ha => hx _ (List.mem_map_of_mem ha), fun a ha => hy _ (List.mem_map_of_mem ha), ?_⟩
      refine (forall₂_trans' (forall₂_zip_zip f3 f4) (mapM_forall₂ h5)).imp ?_
      rintro ⟨a, b⟩ r ⟨⟨v, w⟩, ⟨ra, rb⟩, hm, hk⟩
      refine ⟨v, w, ra, rb, ?_, hk⟩
      have := List.all_eq_true.1 ha _ hm
      simpa using this
  · rw [if_neg ha] at h; cases h

theorem rowwiseDcovSqr_ok {xs ys : List Arr} {u : Bool} {l : List (FP ℝ)}
    (h : rowwiseDcovSqr env u xs ys o = .ok (some l)) (hl : xs.length = ys.length) :
    o.exponent = 1 ∧ (o.method = .enum .auto ∨ o.method = .enum .avl) ∧
    o.compileMode ≠ .noCompile ∧ (∀ a ∈ xs, a.dtype.isObject = false) ∧
      (∀ a ∈ ys, a.dtype.isObject = false) ∧
      List.Forall₂ (fun p r => RowRel env u p.1 p.2 r) (xs.zip ys) l := by
  unfold rowwiseDcovSqr at h
  split at h
  · split_ifs at h with hf
    · cases h
    have he : o.exponent = 1 := by
      simp only [canUseFastAlgorithm, Bool.not_eq_false, Bool.and_eq_true, decide_eq_true_eq] at hf
      exact hf.2
    split at h
    · exact ⟨he, .inl (by assumption), rowwiseAvl_ok h hl⟩
    · exact ⟨he, .inr (by assumption), rowwiseAvl_ok h hl⟩
    · cases h
  · cases h

/-- The quotient computed for one row, as a number. -/
theorem row_quotient {c vx vy : ℝ} (hc : c ^ 2 ≤ vx * vy) (hx : 0 ≤ vx) (hy : 0 ≤ vy) :
    nanToZero (.fin c / sqrtClip (.fin vx) / sqrtClip (.fin vy)) = .fin (Spec.ratio c vx vy) := by
  rw [sqrtClip_fin, sqrtClip_fin]
  unfold Spec.ratio nanToZero
  by_cases h : vx * vy = 0
  · have c0 : c = 0 := by
      have : c ^ 2 ≤ 0 := h ▸ hc
      nlinarith [sq_nonneg c]
    rw [if_pos h, c0]
    have hz : (FP.fin 0 / FP.fin (Real.sqrt vx) / FP.fin (Real.sqrt vy) : FP ℝ) = .nan := by
      rcases mul_eq_zero.1 h with h | h
      · rw [h, Real.sqrt_zero, FP.fin_div', if_pos rfl]
        have : (FP.infOfSign (0 : ℝ)) = .nan := by simp [FP.infOfSign]
        rw [this, FP.nan_div]
      · have : (FP.infOfSign (0 : ℝ)) = .nan := by simp [FP.infOfSign]
        by_cases h0 : Real.sqrt vx = 0
        · rw [h0, FP.fin_div', if_pos rfl, this, FP.nan_div]
        · rw [FP.fin_div _ h0, zero_div, h, Real.sqrt_zero, FP.fin_div', if_pos rfl, this]
    rw [hz, if_pos rfl]
  · rw [if_neg h]
    have h1 : vx ≠ 0 := left_ne_zero_of_mul h
    have h2 : vy ≠ 0 := right_ne_zero_of_mul h
    have s1 : Real.sqrt vx ≠ 0 := (Real.sqrt_pos.2 (lt_of_le_of_ne hx h1.symm)).ne'
    have s2 : Real.sqrt vy ≠ 0 := (Real.sqrt_pos.2 (lt_of_le_of_ne hy h2.symm)).ne'
    rw [FP.fin_div _ s1, FP.fin_div _ s2, if_neg (by simp), abs_of_nonneg (mul_nonneg hx hy),
      Real.sqrt_mul hx, div_div]

/-- Squared distance correlation, or its unbiased version. -/
noncomputable def Spec.corOf {n : ℕ} (u : Bool) (a b : Fin n → Fin n → ℝ) : ℝ :=
  if u then Spec.uDcorSqr a b else Spec.dcorSqr a b

theorem row_quotient_spec {n : ℕ} (hn : 3 < n) (u : Bool) (a b : Fin n → Fin n → ℝ) :
    nanToZero (.fin (Spec.covOf u a b) / sqrtClip (.fin (Spec.covOf u a a))
      / sqrtClip (.fin (Spec.covOf u b b))) = .fin (Spec.corOf u a b) := by
  cases u
  · exact row_quotient (Spec.dcovSqr_cauchy a b) (Spec.dcovSqr_self_nonneg a)
      (Spec.dcovSqr_self_nonneg b)
  · refine row_quotient ?_ (Spec.uDvar_nonneg hn a) (Spec.uDvar_nonneg hn b)
    change Spec.uDcovSqr a b ^ 2 ≤ Spec.uDcovSqr a a * Spec.uDcovSqr b b
    rw [Spec.uDcovSqr_eq_uIp, Spec.uDcovSqr_eq_uIp, Spec.uDcovSqr_eq_uIp]
    exact uIp_cauchy hn _ _

theorem concatenateRows_ok {l : List (List Arr)} {r : List Arr} (h : concatenateRows l = .ok r) :
    r = l.flatten.map fun a => ⟨.numpy, joinDTypes (l.flatten.map Arr.dtype), a.data⟩ := by
  unfold concatenateRows at h
  cases h1 : l.forM checkHomogeneous with
  | error e => rw [h1] at h; cases h
  | ok _ =>
  rw [h1, Except.ok_bind'] at h
  dsimp only at h
  by_cases h2 : (l.any List.isEmpty && !l.flatten.isEmpty) = true
  · rw [if_pos h2] at h; cases h
  rw [if_neg h2] at h
  change (checkHomogeneous l.flatten >>= fun _ => _) = _ at h
  cases h3 : checkHomogeneous l.flatten with
  | error e => rw [h3] at h; cases h
  | ok _ =>
  rw [h3, Except.ok_bind'] at h
  cases h
  rfl

/-- What the optimised implementation of a correlation computes for one row. -/
def CorRel (u : Bool) (a b : Arr) (r : FP ℝ) : Prop :=
  ∃ n, ∃ X Y : Fin n → Fin 1 → ℝ, 3 < n ∧ Holds a.data n 1 X ∧ Holds b.data n 1 Y ∧
      r = .fin (Spec.corOf u (Spec.distMat 1 X) (Spec.distMat 1 Y))

theorem combine {u : Bool} : ∀ {xs ys : List Arr} {r1 r2 r3 : List (FP ℝ)}, xs.length = ys.length →
    (∀ a ∈ xs, a.shape0 < 2 ^ 21) →
    List.Forall₂ (fun p r => RowRel env u p.1 p.2 r) (xs.zip ys) r1 →
    List.Forall₂ (fun p r => RowRel env u p.1 p.2 r) (xs.zip xs) r2 →
    List.Forall₂ (fun p r => RowRel env u p.1 p.2 r) (ys.zip ys) r3 →
    List.Forall₂ (fun p r => CorRel u p.1 p.2 r) (xs.zip ys)
      ((r1.zip ((r2.map sqrtClip).zip (r3.map sqrtClip))).map fun p => nanToZero (p.1 / p.2.1 / p.2.2))
  | [], ys, r1, r2, r3, _, _, h1, _, _ => by
    cases h1
    exact .nil
  | x :: xs, [], _, _, _, hl, _, _, _, _ => by simp at hl
  | x :: xs, y :: ys, r1, r2, r3, hl, hN, h1, h2, h3 => by
    rw [List.zip_cons_cons] at h1 h2 h3 ⊢
    cases h1 with
    | cons a1 t1 =>
    cases h2 with
    | cons a2 t2 =>
    cases h3 with
    | cons a3 t3 =>
    refine .cons ?_ (combine (by simpa using hl) (fun a ha => hN a (by simp [ha])) t1 t2 t3)
    obtain ⟨n, X, Y, hn, hX, hY, e1, e2, e3⟩ := a1.spec₃ a2 a3 (hN x (by simp))
    refine ⟨n, X, Y, hn, hX, hY, ?_⟩
    dsimp only
    rw [e1, e2, e3, row_quotient_spec hn]

theorem RowRel.of_map {u : Bool} {d d' : DType} {ns ns' : Namespace} {a b : Arr} {r : FP ℝ}
    (h : RowRel env u ⟨ns, d, a.data⟩ ⟨ns', d', b.data⟩ r) : RowRel env u a b r := h

theorem rowwiseDcorSqr_ok {xs ys : List Arr} {u : Bool} {l : List (FP ℝ)}
    (h : rowwiseDcorSqr env u xs ys o = .ok (some l)) (hl : xs.length = ys.length)
    (hN : ∀ a ∈ xs, a.shape0 < 2 ^ 21) :
    o.exponent = 1 ∧ (o.method = .enum .auto ∨ o.method = .enum .avl) ∧
    o.compileMode ≠ .noCompile ∧ (∀ a ∈ xs, a.dtype.isObject = false) ∧
      (∀ a ∈ ys, a.dtype.isObject = false) ∧
      List.Forall₂ (fun p r => CorRel u p.1 p.2 r) (xs.zip ys) l := by
  unfold rowwiseDcorSqr at h
  dsimp only at h
  cases h1 : concatenateRows [xs, xs, ys] with
  | error e => rw [h1] at h; cases h
  | ok cx =>
  rw [h1, Except.ok_bind'] at h
  cases h2 : concatenateRows [ys, xs, ys] with
  | error e => rw [h2] at h; cases h
  | ok cy =>
  rw [h2, Except.ok_bind'] at h
  cases h3 : rowwiseDcovSqr env u cx cy o with
  | error e => rw [h3] at h; cases h
  | ok r =>
  rw [h3, Except.ok_bind'] at h
  have e1 := concatenateRows_ok h1
  have e2 := concatenateRows_ok h2
  simp only [List.flatten_cons, List.flatten_nil, List.append_nil] at e1 e2
  cases r with
  | none => cases h
  | some res =>
  have hlen : cx.length = cy.length := by
    rw [e1, e2]
    simp [hl]
  obtain ⟨c1, c2, c3, c4, _, c6⟩ := rowwiseDcovSqr_ok h3 hlen
  have hj : ∀ a ∈ xs ++ (xs ++ ys), a.dtype.isObject = false := by
    intro a ha
    have h4 : (joinDTypes ((xs ++ (xs ++ ys)).map Arr.dtype)).isObject = false := by
      have := c4 _ (e1 ▸ List.mem_map_of_mem (f := fun a : Arr =>
        (⟨.numpy, joinDTypes ((xs ++ (xs ++ ys)).map Arr.dtype), a.data⟩ : Arr)) ha)
      exact this
    exact joinDTypes_not_object h4 _ (List.mem_map_of_mem ha)
  refine ⟨c1, c2, c3, fun a ha => hj a (by simp [ha]), fun a ha => hj a (by simp [ha]), ?_⟩
  cases h
  rw [e1, e2, List.zip_map, List.forall₂_map_left_iff] at c6
  have c7 : List.Forall₂ (fun p r => RowRel env u p.1 p.2 r)
      ((xs ++ (xs ++ ys)).zip (ys ++ (xs ++ ys))) res := c6.imp fun a b hab => hab
  rw [List.zip_append hl, List.zip_append rfl] at c7
  have l1 : (xs.zip ys).length = xs.length := by simp [hl]
  have l2 : (xs.zip xs).length = xs.length := by simp
  have t1 := List.forall₂_take xs.length c7
  rw [List.take_left' l1] at t1
  have t2 := List.forall₂_drop xs.length (List.forall₂_take (2 * xs.length) c7)
  have t3 := List.forall₂_drop (2 * xs.length) c7
  have e3 : (xs.zip ys ++ (xs.zip xs ++ ys.zip ys)).take (2 * xs.length) = xs.zip ys ++ xs.zip xs := by
    rw [← List.append_assoc]
    exact List.take_left' (by rw [List.length_append, l1, l2]; ring)
  have e4 : (xs.zip ys ++ (xs.zip xs ++ ys.zip ys)).drop (2 * xs.length) = ys.zip ys := by
    rw [← List.append_assoc]
    exact List.drop_left' (by rw [List.length_append, l1, l2]; ring)
  rw [e3, List.drop_left' l1] at t2
  rw [e4] at t3
  exact combine hl hN t1 t2 t3

/-! ### Comparison with the functions -/

/-- Rows for which the optimised implementation returned are supported by the functions in the default
compile mode. -/
theorem supported_row {n : ℕ} {X Y : Fin n → Fin 1 → ℝ} {a b : Arr} (hn : 3 < n)
    (hX : Holds a.data n 1 X) (hY : Holds b.data n 1 Y) (ha : a.dtype.isObject = false)
    (hb : b.dtype.isObject = false) (he : o.exponent = 1)
    (hm : o.method = .enum .auto ∨ o.method = .enum .avl)
    (hns : o.method = .enum .avl → a.ns = .numpy ∨ b.ns = .numpy) :
    Supported env a b { o with compileMode := .auto } X Y := by
  have da : a.dtype ≠ .decimal := fun h => by rw [h] at ha; cases ha
  have db : b.dtype ≠ .decimal := fun h => by rw [h] at hb; cases hb
  have hd : a.dtype = .decimal ↔ b.dtype = .decimal := ⟨fun h => absurd h da, fun h => absurd h db⟩
  refine ⟨hX, hY, ?_⟩
  rcases hm with hm | hm
  · refine ⟨.auto, by simp [hm, toAlgorithm], ?_⟩
    unfold CallOk
    dsimp only
    by_cases hns' : a.ns = .numpy ∨ b.ns = .numpy
    · rw [if_pos ⟨he, rfl, rfl, hn, hns'⟩]
      exact ⟨he, rfl, rfl, hn, hns', by simp, by simp, hd⟩
    · rw [if_neg (fun h => hns' h.2.2.2.2)]
      exact ⟨.inl rfl, fun h => (h.elim da db).elim, by rw [he]; norm_num, hd⟩
  · refine ⟨.avl, by simp [hm, toAlgorithm], ?_⟩
    exact ⟨he, rfl, rfl, hn, hns hm, by simp, by simp, hd⟩

/-- The value of a row in the optimised implementation. -/
theorem rowwiseFunction_ok {f : RowFn} {g} (hg : f.rowwiseFunction env = some g) {xs ys : List Arr}
    {l : List (FP ℝ)} (h : g xs ys o = .ok (some l)) (hl : xs.length = ys.length)
    (hN : ∀ a ∈ xs, a.shape0 < 2 ^ 21) :
    o.exponent = 1 ∧ (o.method = .enum .auto ∨ o.method = .enum .avl) ∧ o.compileMode ≠ .noCompile ∧
    List.Forall₂ (fun p r => (o.method = .enum .avl → p.1.ns = .numpy ∨ p.2.ns = .numpy) →
      (f.call env { o with compileMode := .auto } p.1 p.2).out = .ok r) (xs.zip ys) l := by
  have aux : ∀ {R : Arr × Arr → FP ℝ → Prop} {l : List (FP ℝ)}
      (hx : ∀ a ∈ xs, a.dtype.isObject = false) (hy : ∀ a ∈ ys, a.dtype.isObject = false)
      (hR : List.Forall₂ R (xs.zip ys) l) {S : Arr × Arr → FP ℝ → Prop}
      (hS : ∀ p r, p.1.shape0 < 2 ^ 21 → p.1.dtype.isObject = false → p.2.dtype.isObject = false →
        R p r → S p r),
      List.Forall₂ S (xs.zip ys) l := by
    intro R l hx hy hR S hS
    refine (forall₂_mem_left hR).imp ?_
    rintro ⟨a, b⟩ r ⟨hm, hr⟩
    have := List.of_mem_zip hm
    exact hS _ _ (hN _ this.1) (hx _ this.1) (hy _ this.2) hr
  cases f <;> simp only [RowFn.rowwiseFunction, Option.some.injEq, reduceCtorEq] at hg <;> subst hg
  case dcovSqr =>
    obtain ⟨h1, h2, h3, h4, h5, h6⟩ := rowwiseDcovSqr_ok h hl
    refine ⟨h1, h2, h3, aux h4 h5 h6 ?_⟩
    rintro ⟨a, b⟩ r hs ha hb hr hns
    obtain ⟨n, X, Y, hn, hX, hY, rfl⟩ := hr.spec hs
    have := distanceCovarianceSqr_ok (supported_row (env := env) hn hX hY ha hb h1 h2 hns) (by omega)
    simpa [RowFn.call, Spec.covOf, h1] using this
  case uDcovSqr =>
    obtain ⟨h1, h2, h3, h4, h5, h6⟩ := rowwiseDcovSqr_ok h hl
    refine ⟨h1, h2, h3, aux h4 h5 h6 ?_⟩
    rintro ⟨a, b⟩ r hs ha hb hr hns
    obtain ⟨n, X, Y, hn, hX, hY, rfl⟩ := hr.spec hs
    have := uDistanceCovarianceSqr_ok (supported_row (env := env) hn hX hY ha hb h1 h2 hns) hn
      (by simp [h1])
    simpa [RowFn.call, Spec.covOf, h1] using this
  case dcov =>
    dsimp only at h
    cases h' : rowwiseDcovSqr env false xs ys o with
    | error e => rw [h'] at h; cases h
    | ok r =>
    rw [h'] at h
    cases r with
    | none => cases h
    | some l' =>
    cases h
    obtain ⟨h1, h2, h3, h4, h5, h6⟩ := rowwiseDcovSqr_ok h' hl
    refine ⟨h1, h2, h3, ?_⟩
    rw [List.forall₂_map_right_iff]
    refine aux h4 h5 h6 ?_
    rintro ⟨a, b⟩ r hs ha hb hr hns
    obtain ⟨n, X, Y, hn, hX, hY, rfl⟩ := hr.spec hs
    have := distanceCovariance_ok (supported_row (env := env) hn hX hY ha hb h1 h2 hns) (by omega)
    simpa [RowFn.call, Spec.covOf, h1, sqrtClip_fin] using this
  case dcorSqr =>
    obtain ⟨h1, h2, h3, h4, h5, h6⟩ := rowwiseDcorSqr_ok h hl hN
    refine ⟨h1, h2, h3, aux h4 h5 h6 ?_⟩
    rintro ⟨a, b⟩ r hs ha hb hr hns
    obtain ⟨n, X, Y, hn, hX, hY, rfl⟩ := hr
    have := distanceCorrelationSqr_ok (supported_row (env := env) hn hX hY ha hb h1 h2 hns) (by omega)
    simpa [RowFn.call, Spec.corOf, h1] using this
  case uDcorSqr =>
    obtain ⟨h1, h2, h3, h4, h5, h6⟩ := rowwiseDcorSqr_ok h hl hN
    refine ⟨h1, h2, h3, aux h4 h5 h6 ?_⟩
    rintro ⟨a, b⟩ r hs ha hb hr hns
    obtain ⟨n, X, Y, hn, hX, hY, rfl⟩ := hr
    have := uDistanceCorrelationSqr_ok (supported_row (env := env) hn hX hY ha hb h1 h2 hns) hn
      (by simp [h1])
    simpa [RowFn.call, Spec.corOf, h1] using this
  case dcor =>
    dsimp only at h
    cases h' : rowwiseDcorSqr env false xs ys o with
    | error e => rw [h'] at h; cases h
    | ok r =>
    rw [h'] at h
    cases r with
    | none => cases h
    | some l' =>
    cases h
    obtain ⟨h1, h2, h3, h4, h5, h6⟩ := rowwiseDcorSqr_ok h' hl hN
    refine ⟨h1, h2, h3, ?_⟩
    rw [List.forall₂_map_right_iff]
    refine aux h4 h5 h6 ?_
    rintro ⟨a, b⟩ r hs ha hb hr hns
    obtain ⟨n, X, Y, hn, hX, hY, rfl⟩ := hr
    have := distanceCorrelation_ok (supported_row (env := env) hn hX hY ha hb h1 h2 hns) (by omega)
    simpa [RowFn.call, Spec.corOf, h1, sqrtClip_fin] using this

/-! ### Numbers of rows -/

theorem rowwiseAvl_length {xs ys : List Arr} {u : Bool} {cm : CompileMode} {l : List (FP ℝ)}
    (h : rowwiseAvl env xs ys u cm = .ok (some l)) : xs.length = ys.length ∨ ys.length = 1 := by
  by_contra hc
  rw [not_or] at hc
  unfold rowwiseAvl at h
  cases h1 : checkHomogeneous xs with
  | error e => rw [h1] at h; cases h
  | ok _ =>
  rw [h1, Except.ok_bind'] at h
  cases h2 : checkHomogeneous ys with
  | error e => rw [h2] at h; cases h
  | ok _ =>
  rw [h2, Except.ok_bind'] at h
  cases h3 : rowVectors xs with
  | error e => rw [h3] at h; cases h
  | ok xv =>
  rw [h3, Except.ok_bind'] at h
  cases h4 : rowVectors ys with
  | error e => rw [h4] at h; cases h
  | ok yv =>
  rw [h4, Except.ok_bind'] at h
  by_cases hcm : cm = .noCompile
  · rw [if_pos hcm] at h; cases h
  rw [if_neg hcm] at h
  dsimp only at h
  by_cases hd : ((joinDTypes (xs.map Arr.dtype)).isObject || (joinDTypes (ys.map Arr.dtype)).isObject
      || joinDTypes (xs.map Arr.dtype) == .int64) = true
  · rw [if_pos hd] at h; cases h
  rw [if_neg hd] at h
  have l1 := (mapM_forall₂ h3).length_eq
  have l2 := (mapM_forall₂ h4).length_eq
  unfold gufuncRows at h
  rw [if_neg (by omega)] at h
  dsimp only at h
  match yv, l2, h with
  | [], _, h => cases h
  | [y], l2, _ => exact hc.2 l2
  | _ :: _ :: _, _, h => cases h

theorem rowwiseDcovSqr_length {xs ys : List Arr} {u : Bool} {l : List (FP ℝ)}
    (h : rowwiseDcovSqr env u xs ys o = .ok (some l)) : xs.length = ys.length ∨ ys.length = 1 := by
  unfold rowwiseDcovSqr at h
  split at h
  · split_ifs at h with hf
    · cases h
    split at h
    · exact rowwiseAvl_length h
    · exact rowwiseAvl_length h
    · cases h
  · cases h

theorem rowwiseDcorSqr_length {xs ys : List Arr} {u : Bool} {l : List (FP ℝ)}
    (h : rowwiseDcorSqr env u xs ys o = .ok (some l)) : xs.length = ys.length := by
  unfold rowwiseDcorSqr at h
  dsimp only at h
  cases h1 : concatenateRows [xs, xs, ys] with
  | error e => rw [h1] at h; cases h
  | ok cx =>
  rw [h1, Except.ok_bind'] at h
  cases h2 : concatenateRows [ys, xs, ys] with
  | error e => rw [h2] at h; cases h
  | ok cy =>
  rw [h2, Except.ok_bind'] at h
  cases h3 : rowwiseDcovSqr env u cx cy o with
  | error e => rw [h3] at h; cases h
  | ok r =>
  rw [h3, Except.ok_bind'] at h
  have e1 := congrArg List.length (concatenateRows_ok h1)
  have e2 := congrArg List.length (concatenateRows_ok h2)
  simp only [List.flatten_cons, List.flatten_nil, List.append_nil, List.length_map,
    List.length_append] at e1 e2
  cases r with
  | none => cases h
  | some res =>
  rcases rowwiseDcovSqr_length h3 with hl | hl
  · omega
  · have : ys = [] := List.eq_nil_of_length_eq_zero (by omega)
    subst this
    have : xs.length = 1 := by simp at e2; omega
    obtain ⟨a, rfl⟩ := List.length_eq_one_iff.1 this
    revert h2
    unfold concatenateRows
    simp [checkHomogeneous, throw, throwThe, MonadExceptOf.throw, List.forM_cons]

theorem rowwiseFunction_length {f : RowFn} {g} (hg : f.rowwiseFunction env = some g) {xs ys : List Arr}
    {l : List (FP ℝ)} (h : g xs ys o = .ok (some l)) : xs.length = ys.length ∨ ys.length = 1 := by
  cases f <;> simp only [RowFn.rowwiseFunction, Option.some.injEq, reduceCtorEq] at hg <;> subst hg
  case dcovSqr => exact rowwiseDcovSqr_length h
  case uDcovSqr => exact rowwiseDcovSqr_length h
  case dcov =>
    dsimp only at h
    cases h' : rowwiseDcovSqr env false xs ys o with
    | error e => rw [h'] at h; cases h
    | ok r =>
    rw [h'] at h
    cases r with
    | none => cases h
    | some l' => exact rowwiseDcovSqr_length h'
  case dcorSqr => exact .inl (rowwiseDcorSqr_length h)
  case uDcorSqr => exact .inl (rowwiseDcorSqr_length h)
  case dcor =>
    dsimp only at h
    cases h' : rowwiseDcorSqr env false xs ys o with
    | error e => rw [h'] at h; cases h
    | ok r =>
    rw [h'] at h
    cases r with
    | none => cases h
    | some l' => exact .inl (rowwiseDcorSqr_length h')

/-! ### The functions in other compile modes -/

theorem fastTerms_auto {w : Warn} {impl : Bool → Vec1 → Vec1 → Except PyErr Terms} {x y : Arr} {α : ℝ}
    {cm : CompileMode} (hcm : cm ≠ .noCompile) {t : Terms}
    (h : (fastTerms w impl x y α cm).out = .ok t) :
    (fastTerms w impl x y α .auto).out = .ok t := by
  unfold fastTerms at h ⊢
  by_cases h1 : α ≠ 1
  · rw [if_pos h1] at h; cases h
  rw [if_neg h1] at h ⊢
  cases h2 : transformTo1d x.data with
  | error e => rw [h2] at h; cases h
  | ok xv =>
  cases h3 : transformTo1d y.data with
  | error e => rw [h2, h3] at h; cases h
  | ok yv =>
  rw [h2, h3] at h
  rw [PyM.lift_ok_bind, PyM.lift_ok_bind] at h ⊢
  by_cases h4 : commonNs x.ns y.ns ≠ .numpy
  · rw [if_pos h4] at h; cases h
  rw [if_neg h4] at h ⊢
  cases cm with
  | auto => exact h
  | noCompile => exact absurd rfl hcm
  | compileParallel => cases h
  | compileCpu =>
    simp only [implsDict, List.map_cons, List.map_nil] at h ⊢
    cases h5 : impl true xv yv with
    | ok t' =>
      rw [h5] at h
      simp only [tryImpls] at h ⊢
      exact h
    | error e =>
      rw [h5] at h
      unfold tryImpls at h
      cases e <;> cases h

theorem dcovTerms_auto {m : Method} {x y : Arr} {α : ℝ} {cm : CompileMode} (hcm : cm ≠ .noCompile)
    {rv : Bool} {t : Terms} (h : (dcovTerms env m x y α cm rv).out = .ok t) :
    (dcovTerms env m x y α .auto rv).out = .ok t := by
  have naive : (dcovTermsNaive env x y α cm rv).out = .ok t →
      (dcovTermsNaive env x y α .auto rv).out = .ok t := by
    intro h
    by_cases hc : cm = .auto
    · rw [← hc]; exact h
    · unfold dcovTermsNaive at h
      rw [if_pos ⟨hc, hcm⟩] at h
      cases h
  cases m with
  | auto =>
    simp only [dcovTerms, dcovTermsAuto] at h ⊢
    split_ifs at h ⊢ with hc
    · exact fastTerms_auto hcm h
    · exact naive h
  | naive => exact naive h
  | avl => exact fastTerms_auto hcm h
  | mergesort => exact fastTerms_auto hcm h

theorem dcovSqr_auto {m : Method} {x y : Arr} {α : ℝ} {cm : CompileMode} (hcm : cm ≠ .noCompile)
    {b : Bool} {r : FP ℝ} (h : (dcovSqr env m x y α cm b).out = .ok r) :
    (dcovSqr env m x y α .auto b).out = .ok r := by
  unfold dcovSqr at h ⊢
  cases h1 : (dcovTerms env m x y α cm false).out with
  | error e => rw [PyM.bind_err h1] at h; cases h
  | ok t =>
    rw [PyM.bind_ok h1] at h
    rw [PyM.bind_ok (dcovTerms_auto hcm h1)]
    exact h

theorem statsSqr_auto {m : Method} {x y : Arr} {α : ℝ} {cm : CompileMode} (hcm : cm ≠ .noCompile)
    {b : Bool} {r : Stats} (h : (statsSqr env m x y α cm b).out = .ok r) :
    (statsSqr env m x y α .auto b).out = .ok r := by
  unfold statsSqr at h ⊢
  cases h1 : (dcovTerms env m x y α cm true).out with
  | error e => rw [PyM.bind_err h1] at h; cases h
  | ok t =>
    rw [PyM.bind_ok h1] at h
    rw [PyM.bind_ok (dcovTerms_auto hcm h1)]
    exact h

theorem PyM.bind_ok_inv {α β : Type} {m : PyM α} {f : α → PyM β} {b : β}
    (h : (m >>= f).out = .ok b) : ∃ a, m.out = .ok a ∧ (f a).out = .ok b := by
  cases h1 : m.out with
  | error e => rw [PyM.bind_err h1] at h; cases h
  | ok a => rw [PyM.bind_ok h1] at h; exact ⟨a, rfl, h⟩

/-- A function that returns in some compile mode returns the same in the default mode. -/
theorem call_auto {f : RowFn} {g} (hg : f.rowwiseFunction env = some g) {a b : Arr} {r : FP ℝ}
    (hcm : o.compileMode ≠ .noCompile) (h : (f.call env o a b).out = .ok r) :
    (f.call env { o with compileMode := .auto } a b).out = .ok r := by
  have cov : ∀ {u r}, (PyM.lift (toAlgorithm env o.method) >>= fun m =>
        dcovSqr env m a b o.exponent o.compileMode u).out = .ok r →
      (PyM.lift (toAlgorithm env o.method) >>= fun m =>
        dcovSqr env m a b o.exponent .auto u).out = .ok r := by
    intro u r h
    obtain ⟨m, h1, h2⟩ := PyM.bind_ok_inv h
    rw [PyM.bind_ok h1]
    exact dcovSqr_auto hcm h2
  have cor : ∀ {u r}, (PyM.lift (toAlgorithm env o.method) >>= fun m =>
        statsSqr env m a b o.exponent o.compileMode u >>= fun s => PyM.pure s.correlationXY).out = .ok r →
      (PyM.lift (toAlgorithm env o.method) >>= fun m =>
        statsSqr env m a b o.exponent .auto u >>= fun s => PyM.pure s.correlationXY).out = .ok r := by
    intro u r h
    obtain ⟨m, h1, h2⟩ := PyM.bind_ok_inv h
    obtain ⟨s, h3, h4⟩ := PyM.bind_ok_inv h2
    rw [PyM.bind_ok h1, PyM.bind_ok (statsSqr_auto hcm h3)]
    exact h4
  cases f with
  | dcovSqr => exact cov h
  | uDcovSqr => exact cov h
  | dcov =>
    obtain ⟨c, h1, h2⟩ := PyM.bind_ok_inv h
    change (distanceCovarianceSqr env a b { o with compileMode := .auto } >>= _).out = _
    have h3 : (distanceCovarianceSqr env a b { o with compileMode := .auto }).out = .ok c := cov h1
    rw [PyM.bind_ok h3]
    exact h2
  | dcorSqr => exact cor h
  | uDcorSqr => exact cor h
  | dcor =>
    obtain ⟨c, h1, h2⟩ := PyM.bind_ok_inv h
    change (distanceCorrelationSqr env a b { o with compileMode := .auto } >>= _).out = _
    have h3 : (distanceCorrelationSqr env a b { o with compileMode := .auto }).out = .ok c := cor h1
    rw [PyM.bind_ok h3]
    exact h2
  | other f => cases hg

/-- The AVL method needs NumPy arrays. -/
theorem call_avl_numpy {f : RowFn} {g} (hg : f.rowwiseFunction env = some g) {a b : Arr} {r : FP ℝ}
    (hm : o.method = .enum .avl) (h : (f.call env o a b).out = .ok r) :
    a.ns = .numpy ∨ b.ns = .numpy := by
  have terms : ∀ {rv t}, (dcovTerms env .avl a b o.exponent o.compileMode rv).out = .ok t →
      a.ns = .numpy ∨ b.ns = .numpy := by
    intro rv t h
    simp only [dcovTerms, dcovTermsAvl, fastTerms] at h
    by_cases h1 : o.exponent ≠ 1
    · rw [if_pos h1] at h; cases h
    rw [if_neg h1] at h
    obtain ⟨_, _, h⟩ := PyM.bind_ok_inv h
    obtain ⟨_, _, h⟩ := PyM.bind_ok_inv h
    by_cases hns : commonNs a.ns b.ns ≠ .numpy
    · rw [if_pos hns] at h; cases h
    · revert hns
      cases a.ns <;> cases b.ns <;> simp [commonNs]
  have cov : ∀ {u r}, (PyM.lift (toAlgorithm env o.method) >>= fun m =>
        dcovSqr env m a b o.exponent o.compileMode u).out = .ok r → a.ns = .numpy ∨ b.ns = .numpy := by
    intro u r h
    rw [hm, toAlgorithm, PyM.lift_ok_bind] at h
    obtain ⟨t, h, _⟩ := PyM.bind_ok_inv h
    exact terms h
  have cor : ∀ {u r}, (PyM.lift (toAlgorithm env o.method) >>= fun m =>
        statsSqr env m a b o.exponent o.compileMode u >>= fun s => PyM.pure s.correlationXY).out = .ok r →
      a.ns = .numpy ∨ b.ns = .numpy := by
    intro u r h
    rw [hm, toAlgorithm, PyM.lift_ok_bind] at h
    obtain ⟨s, h, _⟩ := PyM.bind_ok_inv h
    obtain ⟨t, h, _⟩ := PyM.bind_ok_inv h
    exact terms h
  cases f with
  | dcovSqr => exact cov h
  | uDcovSqr => exact cov h
  | dcov => obtain ⟨c, h1, h2⟩ := PyM.bind_ok_inv h; exact cov h1
  | dcorSqr => exact cor h
  | uDcorSqr => exact cor h
  | dcor => obtain ⟨c, h1, h2⟩ := PyM.bind_ok_inv h; exact cor h1
  | other f => cases hg

end Dcor

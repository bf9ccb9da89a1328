/-
Which implementation `rowwise` uses.
-/
import Verif.Proofs.Rowwise
import Verif.Spec.Rowwise

namespace Dcor

variable {env : Env} {o : Opts}

theorem checkHomogeneous_ok {l : List Arr} {s : List ℕ} (h : ∀ a ∈ l, a.shape = s) :
    checkHomogeneous l = .ok () := by
  cases l with
  | nil => rfl
  | cons a l =>
    unfold checkHomogeneous
    dsimp only
    rw [if_pos]
    rw [List.all_eq_true]
    intro b hb
    rw [h a (by simp), h b (by simp [hb])]
    simp

theorem to1d_of_shape {a : Arr} {n : ℕ} (h : a.shape = [n] ∨ a.shape = [n, 1]) :
    ∃ v, transformTo1d a.data = .ok v ∧ v.n = n := by
  unfold Arr.shape at h
  cases hd : a.data with
  | vec k w =>
    rw [hd] at h
    simp at h
    exact ⟨_, rfl, h⟩
  | mat k p m =>
    rw [hd] at h
    simp at h
    obtain ⟨rfl, rfl⟩ := h
    exact ⟨_, rfl, rfl⟩
  | nd d0 d1 d2 r => rw [hd] at h; simp at h

theorem rowVectors_ok {l : List Arr} {n : ℕ} (h : ∀ a ∈ l, a.shape = [n] ∨ a.shape = [n, 1]) :
    ∃ xv, rowVectors l = .ok xv ∧ xv.length = l.length ∧ ∀ v ∈ xv, v.n = n := by
  induction l with
  | nil => exact ⟨[], rfl, rfl, by simp⟩
  | cons a l ih =>
    obtain ⟨xv, h1, h2, h3⟩ := ih fun b hb => h b (by simp [hb])
    obtain ⟨v, h4, h5⟩ := to1d_of_shape (h a (by simp))
    refine ⟨v :: xv, ?_, by simp [h2], by simp [h5]; exact h3⟩
    unfold rowVectors at h1 ⊢
    rw [List.mapM_cons, h4, Except.ok_bind', h1, Except.ok_bind']
    rfl

theorem rowKernel_of_n {u : Bool} {v w : Vec1} (h : v.n = w.n) (hN : v.n < 2 ^ 21) :
    ∃ c, rowKernel env u (v, w) = if 3 < v.n then .ok c else .error .assertionError := by
  obtain ⟨n, v⟩ := v
  obtain ⟨m, w⟩ := w
  simp only at h hN
  subst h
  exact ⟨_, rowKernel_eq (env := env) hN u (fun i _ => v i) (fun i _ => w i)⟩

theorem dcovFromTermsCompiled_ne {n : ℕ} (meanProd : ℝ) (aAxis : Fin n → ℝ)
    (aTotal : ℝ) (bAxis : Fin n → ℝ) (bTotal : ℝ) (u : Bool) :
    dcovFromTermsCompiled meanProd aAxis aTotal bAxis bTotal u ≠ .error .notImplementedError := by
  have h := fun k a d => npDiv_ne k a d (e := .notImplementedError) (by simp)
  unfold dcovFromTermsCompiled
  refine Except.bind_ne (h _ _ _) fun _ => Except.bind_ne (h _ _ _) fun _ => ?_
  cases u <;>
  exact Except.bind_ne (h _ _ _) fun _ => Except.bind_ne (h _ _ _) fun _ =>
    Except.bind_ne (h _ _ _) fun _ => by intro h; cases h

theorem rowKernel_ne {u : Bool} {v w : Vec1} (h : v.n = w.n) :
    rowKernel env u (v, w) ≠ .error .notImplementedError := by
  obtain ⟨n, v⟩ := v
  obtain ⟨m, w⟩ := w
  simp only at h
  subst h
  by_cases hn : 3 < n
  · obtain ⟨core, va, vb, k, e, -, -⟩ := avlImpl_ok env true
      ⟨.numpy, .float64, .vec n v⟩ ⟨.numpy, .float64, .vec n w⟩ (fun i _ => v i) (fun i _ => w i) false hn
      (fun _ => ⟨rfl, rfl⟩) Iff.rfl
    unfold rowKernel
    dsimp only
    rw [e, Except.ok_bind']
    exact dcovFromTermsCompiled_ne _ _ _ _ _ _
  · unfold rowKernel avlImpl
    simp [hn, notFloat64, throw, throwThe, MonadExceptOf.throw]

/-! ### The optimised functions -/

theorem mapM_ne {A B : Type} {f : A → Except PyErr B} {e : PyErr} {l : List A}
    (h : ∀ a ∈ l, f a ≠ .error e) : l.mapM f ≠ .error e := by
  induction l with
  | nil => intro h; cases h
  | cons a l ih =>
    rw [List.mapM_cons]
    refine Except.bind_ne (h a (by simp)) fun b => Except.bind_ne (ih fun c hc => h c (by simp [hc])) ?_
    intro bs h
    cases h

theorem checkHomogeneous_ne (l : List Arr) : checkHomogeneous l ≠ .error .notImplementedError := by
  unfold checkHomogeneous
  split
  · simp
  · split_ifs <;> simp

theorem transformTo1d_ne (d : ArrData) : transformTo1d d ≠ .error .notImplementedError := by
  unfold transformTo1d
  split <;> simp

/-- The optimised covariance raises no `NotImplementedError`, and declines only if compilation is
disabled. -/
theorem rowwiseAvl_ne (xs ys : List Arr) (u : Bool) {cm : CompileMode} (hcm : cm ≠ .noCompile) :
    rowwiseAvl env xs ys u cm ≠ .error .notImplementedError ∧
      rowwiseAvl env xs ys u cm ≠ .ok none := by
  unfold rowwiseAvl
  cases h1 : checkHomogeneous xs with
  | error e =>
    have := checkHomogeneous_ne xs
    rw [h1] at this
    exact ⟨fun h => this (by cases h; rfl), fun h => by cases h⟩
  | ok _ =>
  rw [Except.ok_bind']
  cases h2 : checkHomogeneous ys with
  | error e =>
    have := checkHomogeneous_ne ys
    rw [h2] at this
    exact ⟨fun h => this (by cases h; rfl), fun h => by cases h⟩
  | ok _ =>
  rw [Except.ok_bind']
  cases h3 : rowVectors xs with
  | error e =>
    have : rowVectors xs ≠ .error .notImplementedError := mapM_ne fun a _ => transformTo1d_ne _
    rw [h3] at this
    exact ⟨fun h => this (by cases h; rfl), fun h => by cases h⟩
  | ok xv =>
  rw [Except.ok_bind']
  cases h4 : rowVectors ys with
  | error e =>
    have : rowVectors ys ≠ .error .notImplementedError := mapM_ne fun a _ => transformTo1d_ne _
    rw [h4] at this
    exact ⟨fun h => this (by cases h; rfl), fun h => by cases h⟩
  | ok yv =>
  rw [Except.ok_bind', if_neg hcm]
  dsimp only
  by_cases hd : ((joinDTypes (xs.map Arr.dtype)).isObject || (joinDTypes (ys.map Arr.dtype)).isObject
      || joinDTypes (xs.map Arr.dtype) == .int64) = true
  · rw [if_pos hd]
    exact ⟨nofun, nofun⟩
  rw [if_neg hd]
  have hrows : ∀ rows, gufuncRows xv yv = .ok rows → ∀ p ∈ rows, p.1.n = p.2.n := by
    intro rows h
    unfold gufuncRows at h
    dsimp only at h
    split at h
    · cases h
    · split_ifs at h with ha
      cases h
      intro p hp
      simpa using List.all_eq_true.1 ha p hp
  have hgu : gufuncRows xv yv ≠ .error .notImplementedError := by
    unfold gufuncRows
    dsimp only
    split
    · simp
    · split_ifs <;> simp
  cases h5 : gufuncRows xv yv with
  | error e =>
    rw [h5] at hgu
    exact ⟨fun h => hgu (by cases h; rfl), fun h => by cases h⟩
  | ok rows =>
  rw [Except.ok_bind']
  have hk : rows.mapM (rowKernel env u) ≠ .error .notImplementedError := by
    refine mapM_ne fun p hp => ?_
    obtain ⟨v, w⟩ := p
    exact rowKernel_ne (hrows _ h5 _ hp)
  cases h6 : rows.mapM (rowKernel env u) with
  | error e =>
    rw [h6] at hk
    exact ⟨fun h => hk (by cases h; rfl), fun h => by cases h⟩
  | ok res => exact ⟨nofun, nofun⟩

/-- Arrays of the same univariate shape. -/
theorem rowwiseAvl_eval {xs ys : List Arr} {u : Bool} {cm : CompileMode} {n m : ℕ} {sx sy : List ℕ}
    (hx : ∀ a ∈ xs, a.shape = sx) (hy : ∀ a ∈ ys, a.shape = sy) (hsx : sx = [n] ∨ sx = [n, 1])
    (hsy : sy = [m] ∨ sy = [m, 1]) :
    (cm = .noCompile → rowwiseAvl env xs ys u cm = .ok none) ∧
    (cm ≠ .noCompile → (joinDTypes (xs.map Arr.dtype)).isObject = true
        ∨ (joinDTypes (ys.map Arr.dtype)).isObject = true ∨ joinDTypes (xs.map Arr.dtype) = .int64 →
      rowwiseAvl env xs ys u cm = .error .typeError) ∧
    (cm ≠ .noCompile → (joinDTypes (xs.map Arr.dtype)).isObject = false →
      (joinDTypes (ys.map Arr.dtype)).isObject = false → joinDTypes (xs.map Arr.dtype) ≠ .int64 →
      xs.length = ys.length ∨ ys.length = 1 → n = m → 3 < n → n < 2 ^ 21 →
      ∃ l, rowwiseAvl env xs ys u cm = .ok (some l) ∧ l.length = xs.length) := by
  obtain ⟨xv, hxv, lx, nx⟩ := rowVectors_ok (l := xs) (n := n) fun a ha => by rw [hx a ha]; exact hsx
  obtain ⟨yv, hyv, ly, ny⟩ := rowVectors_ok (l := ys) (n := m) fun a ha => by rw [hy a ha]; exact hsy
  have e : rowwiseAvl env xs ys u cm = (if cm = .noCompile then pure none
      else if ((joinDTypes (xs.map Arr.dtype)).isObject || (joinDTypes (ys.map Arr.dtype)).isObject
        || joinDTypes (xs.map Arr.dtype) == .int64) = true then .error .typeError
      else gufuncRows xv yv >>= fun rows => rows.mapM (rowKernel env u) >>= fun res =>
        pure (some res)) := by
    unfold rowwiseAvl
    rw [checkHomogeneous_ok hx, Except.ok_bind', checkHomogeneous_ok hy, Except.ok_bind', hxv,
      Except.ok_bind', hyv, Except.ok_bind']
    by_cases hcm : cm = .noCompile
    · rw [if_pos hcm, if_pos hcm]
    rw [if_neg hcm, if_neg hcm]
    dsimp only
    by_cases hd : ((joinDTypes (xs.map Arr.dtype)).isObject || (joinDTypes (ys.map Arr.dtype)).isObject
      || joinDTypes (xs.map Arr.dtype) == .int64) = true
    · rw [if_pos hd, if_pos hd]; rfl
    · rw [if_neg hd, if_neg hd]
  refine ⟨fun h => by rw [e, if_pos h]; rfl, fun h hd => ?_, fun h h1 h2 h3 hl hn h4 hN => ?_⟩
  · rw [e, if_neg h, if_pos]
    simp only [Bool.or_eq_true, beq_iff_eq]
    tauto
  · subst hn
    rw [e, if_neg h, if_neg (by simp [h1, h2, h3])]
    have hg : ∃ rows, gufuncRows xv yv = .ok rows ∧ rows.length = xs.length ∧
        ∀ p ∈ rows, p.1.n = n ∧ p.2.n = n := by
      unfold gufuncRows
      dsimp only
      by_cases hll : xv.length = yv.length
      · have hall : ∀ p ∈ xv.zip yv, p.1.n = n ∧ p.2.n = n := fun p hp =>
          ⟨nx _ (List.of_mem_zip hp).1, ny _ (List.of_mem_zip hp).2⟩
        rw [if_pos hll]
        dsimp only
        rw [if_pos (List.all_eq_true.2 fun p hp => by rw [(hall p hp).1, (hall p hp).2]; simp)]
        exact ⟨_, rfl, by simp [← hll, lx], hall⟩
      · rw [if_neg hll]
        have : yv.length = 1 := by omega
        obtain ⟨y, rfl⟩ := List.length_eq_one_iff.1 this
        dsimp only
        have hall : ∀ p ∈ xv.map fun x => (x, y), p.1.n = n ∧ p.2.n = n := by
          intro p hp
          obtain ⟨x, hx, rfl⟩ := List.mem_map.1 hp
          exact ⟨nx _ hx, ny y (by simp)⟩
        rw [if_pos (List.all_eq_true.2 fun p hp => by rw [(hall p hp).1, (hall p hp).2]; simp)]
        exact ⟨_, rfl, by simp [lx], hall⟩
    obtain ⟨rows, hr, hrl, hrn⟩ := hg
    rw [hr, Except.ok_bind']
    have hk : ∃ l, rows.mapM (rowKernel env u) = .ok l := by
      clear hr hrl
      induction rows with
      | nil => exact ⟨[], rfl⟩
      | cons p rows ih =>
        obtain ⟨l, hl⟩ := ih fun q hq => hrn q (by simp [hq])
        obtain ⟨h1, h2⟩ := hrn p (by simp)
        obtain ⟨v, w⟩ := p
        simp only at h1 h2
        obtain ⟨c, hc⟩ := rowKernel_of_n (env := env) (u := u) (h1.trans h2.symm) (h1 ▸ hN)
        rw [h1, if_pos h4] at hc
        exact ⟨c :: l, by rw [List.mapM_cons, hc, Except.ok_bind', hl, Except.ok_bind']; rfl⟩
    obtain ⟨l, hl⟩ := hk
    refine ⟨l, by rw [hl, Except.ok_bind']; rfl, ?_⟩
    rw [← (mapM_forall₂ hl).length_eq, hrl]

/-! ### Applicability -/

theorem isRV_of_shape {a : Arr} {n : ℕ} (h : a.shape = [n] ∨ a.shape = [n, 1]) :
    isRandomVariable a = true ∧ a.shape0 = n := by
  unfold Arr.shape at h
  unfold isRandomVariable Arr.shape0
  cases hd : a.data with
  | vec k w => rw [hd] at h; simpa using h
  | mat k p m =>
    rw [hd] at h
    simp at h
    simp [h]
  | nd d0 d1 d2 r => rw [hd] at h; simp at h

theorem shape_of_isRV {a : Arr} (hd : a.shape.length = 1 ∨ a.shape.length = 2)
    (h : isRandomVariable a = true) : a.shape = [a.shape0] ∨ a.shape = [a.shape0, 1] := by
  unfold Arr.shape at hd ⊢
  unfold isRandomVariable at h
  unfold Arr.shape0
  cases he : a.data with
  | vec k w => simp
  | mat k p m => rw [he] at h; simp at h; simp [h]
  | nd d0 d1 d2 r => rw [he] at hd; simp at hd

theorem canUse_of_fast {a b : Arr} (ha : a.FastSample) (hb : b.FastSample) (he : o.exponent = 1) :
    canUseFastAlgorithm a b o.exponent = true := by
  obtain ⟨n, hn, h1⟩ := ha
  obtain ⟨m, hm, h2⟩ := hb
  obtain ⟨r1, s1⟩ := isRV_of_shape h1
  obtain ⟨r2, s2⟩ := isRV_of_shape h2
  simp [canUseFastAlgorithm, r1, r2, s1, s2, hn, hm, he]

theorem fast_of_canUse {a b : Arr} (da : a.shape.length = 1 ∨ a.shape.length = 2)
    (db : b.shape.length = 1 ∨ b.shape.length = 2) (h : canUseFastAlgorithm a b o.exponent = true) :
    a.FastSample ∧ b.FastSample ∧ o.exponent = 1 := by
  simp only [canUseFastAlgorithm, Bool.and_eq_true, decide_eq_true_eq] at h
  obtain ⟨⟨⟨⟨h1, h2⟩, h3⟩, h4⟩, h5⟩ := h
  exact ⟨⟨_, h3, shape_of_isRV da h1⟩, ⟨_, h4, shape_of_isRV db h2⟩, h5⟩

/-- The conditions for the covariance functions. -/
def CovApplies (xs ys : List Arr) (o : Opts) : Prop :=
  (∃ a ∈ xs.head?, a.FastSample) ∧ (∃ a ∈ ys.head?, a.FastSample) ∧ o.exponent = 1 ∧
    (o.method = .enum .auto ∨ o.method = .enum .avl) ∧ o.compileMode ≠ .noCompile

theorem rowwiseDcovSqr_applies {xs ys : List Arr} (u : Bool) (h : CovApplies xs ys o) :
    rowwiseDcovSqr env u xs ys o = rowwiseAvl env xs ys u o.compileMode := by
  obtain ⟨⟨x, hx, fx⟩, ⟨y, hy, fy⟩, he, hm, hcm⟩ := h
  cases xs with
  | nil => cases hx
  | cons x' xs =>
  cases ys with
  | nil => cases hy
  | cons y' ys =>
  simp only [List.head?_cons, Option.mem_def, Option.some.injEq] at hx hy
  subst hx hy
  unfold rowwiseDcovSqr
  dsimp only
  rw [if_neg (by rw [canUse_of_fast fx fy he]; simp)]
  rcases hm with hm | hm <;> rw [hm]

theorem rowwiseDcovSqr_declines {xs ys : List Arr} {sx sy : List ℕ} (u : Bool) (nx : xs ≠ [])
    (ny : ys ≠ []) (hx : Uniform sx xs) (hy : Uniform sy ys) (h : ¬ CovApplies xs ys o) :
    rowwiseDcovSqr env u xs ys o = .ok none := by
  cases xs with
  | nil => exact absurd rfl nx
  | cons x xs =>
  cases ys with
  | nil => exact absurd rfl ny
  | cons y ys =>
  have ex := hx.shape x (by simp)
  have ey := hy.shape y (by simp)
  unfold rowwiseDcovSqr
  dsimp only
  by_cases hc : canUseFastAlgorithm x y o.exponent = false
  · rw [if_pos hc]
  rw [if_neg hc]
  obtain ⟨fx, fy, he⟩ := fast_of_canUse (by rw [ex]; exact hx.dims) (by rw [ey]; exact hy.dims)
    (Bool.eq_true_of_not_eq_false hc)
  have avl : (o.method = .enum .auto ∨ o.method = .enum .avl) →
      rowwiseAvl env (x :: xs) (y :: ys) u o.compileMode = .ok none := by
    intro hm
    have hcm : o.compileMode = .noCompile := by
      by_contra hcm
      exact h ⟨⟨x, rfl, fx⟩, ⟨y, rfl, fy⟩, he, hm, hcm⟩
    obtain ⟨n, _, hn⟩ := fx
    obtain ⟨m, _, hm'⟩ := fy
    rw [ex] at hn
    rw [ey] at hm'
    exact (rowwiseAvl_eval hx.shape hy.shape hn hm').1 hcm
  split
  · exact avl (.inl (by assumption))
  · exact avl (.inr (by assumption))
  · rfl

theorem forM_ok {A : Type} {f : A → Except PyErr Unit} {l : List A} (h : ∀ a ∈ l, f a = .ok ()) :
    l.forM f = .ok () := by
  induction l with
  | nil => rfl
  | cons a l ih =>
    change (f a >>= fun _ => l.forM f) = _
    rw [h a (by simp), Except.ok_bind']
    exact ih fun b hb => h b (by simp [hb])

theorem concatenateRows_uniform {l : List (List Arr)} {s : List ℕ} (h : ∀ r ∈ l, ∀ a ∈ r, a.shape = s)
    (hne : ∀ r ∈ l, r ≠ []) :
    concatenateRows l = .ok (l.flatten.map fun a =>
      ⟨.numpy, joinDTypes (l.flatten.map Arr.dtype), a.data⟩) := by
  unfold concatenateRows
  rw [forM_ok fun r hr => checkHomogeneous_ok (h r hr), Except.ok_bind']
  dsimp only
  have h1 : l.any List.isEmpty = false := by
    rw [List.any_eq_false]
    intro r hr
    simpa using hne r hr
  rw [h1, Bool.false_and, if_neg (by simp)]
  change (checkHomogeneous l.flatten >>= fun _ => _) = _
  rw [checkHomogeneous_ok (s := s) fun a ha => ?_, Except.ok_bind']
  · rfl
  · obtain ⟨r, hr, har⟩ := List.mem_flatten.1 ha
    exact h r hr a har

/-- The concatenation, with the samples of the first row in front. -/
theorem concat_head {a : Arr} {l : List Arr} {r : List Arr} (d : DType)
    (hr : r = (a :: l).map fun a => (⟨.numpy, d, a.data⟩ : Arr)) :
    (∃ b ∈ r.head?, b.FastSample) ↔ a.FastSample := by
  subst hr
  simp [Arr.FastSample, Arr.shape]

theorem CovApplies_concat {xs ys : List Arr} (nx : xs ≠ []) (ny : ys ≠ []) (l1 l2 : List Arr)
    (d1 d2 : DType) :
    CovApplies ((xs ++ l1).map fun a => (⟨.numpy, d1, a.data⟩ : Arr))
      ((ys ++ l2).map fun a => (⟨.numpy, d2, a.data⟩ : Arr)) o ↔ CovApplies xs ys o := by
  cases xs with
  | nil => exact absurd rfl nx
  | cons x xs =>
  cases ys with
  | nil => exact absurd rfl ny
  | cons y ys => simp [CovApplies, Arr.FastSample, Arr.shape]

theorem concatenateRows_ne (l : List (List Arr)) :
    concatenateRows l ≠ .error .notImplementedError := by
  unfold concatenateRows
  refine Except.bind_ne ?_ fun _ => ?_
  · induction l with
    | nil => intro h; cases h
    | cons a l ih =>
      change (checkHomogeneous a >>= fun _ => l.forM checkHomogeneous) ≠ _
      exact Except.bind_ne (checkHomogeneous_ne a) fun _ => ih
  · dsimp only
    split_ifs
    · intro h; cases h
    · exact Except.bind_ne (checkHomogeneous_ne _) fun _ h => by cases h

theorem rowwiseDcorSqr_applies {xs ys : List Arr} (u : Bool) (h : CovApplies xs ys o) :
    rowwiseDcorSqr env u xs ys o ≠ .error .notImplementedError ∧
      rowwiseDcorSqr env u xs ys o ≠ .ok none := by
  have nx : xs ≠ [] := by rintro rfl; obtain ⟨⟨a, ha, _⟩, _⟩ := h; cases ha
  have ny : ys ≠ [] := by rintro rfl; obtain ⟨_, ⟨a, ha, _⟩, _⟩ := h; cases ha
  unfold rowwiseDcorSqr
  dsimp only
  cases h1 : concatenateRows [xs, xs, ys] with
  | error e =>
    have := concatenateRows_ne [xs, xs, ys]
    rw [h1] at this
    exact ⟨fun h => this (by cases h; rfl), fun h => by cases h⟩
  | ok cx =>
  rw [Except.ok_bind']
  cases h2 : concatenateRows [ys, xs, ys] with
  | error e =>
    have := concatenateRows_ne [ys, xs, ys]
    rw [h2] at this
    exact ⟨fun h => this (by cases h; rfl), fun h => by cases h⟩
  | ok cy =>
  rw [Except.ok_bind']
  have e1 := concatenateRows_ok h1
  have e2 := concatenateRows_ok h2
  rw [List.flatten_cons] at e1 e2
  have happ : CovApplies cx cy o := by
    rw [e1, e2]
    exact (CovApplies_concat nx ny _ _ _ _).2 h
  have := rowwiseAvl_ne (env := env) cx cy u h.2.2.2.2
  rw [rowwiseDcovSqr_applies u happ]
  cases h3 : rowwiseAvl env cx cy u o.compileMode with
  | error e =>
    rw [h3] at this
    exact ⟨fun h => this.1 (by cases h; rfl), fun h => by cases h⟩
  | ok r =>
    rw [h3] at this
    cases r with
    | none => exact absurd rfl this.2
    | some res => exact ⟨nofun, nofun⟩

theorem rowwiseDcorSqr_declines {xs ys : List Arr} {s : List ℕ} (u : Bool) (nx : xs ≠ [])
    (ny : ys ≠ []) (hx : Uniform s xs) (hy : Uniform s ys) (h : ¬ CovApplies xs ys o) :
    rowwiseDcorSqr env u xs ys o = .ok none := by
  unfold rowwiseDcorSqr
  dsimp only
  have u1 : ∀ r ∈ [xs, xs, ys], ∀ a ∈ r, a.shape = s := by
    simp only [List.mem_cons, List.not_mem_nil, or_false]
    rintro r (rfl | rfl | rfl)
    · exact hx.shape
    · exact hx.shape
    · exact hy.shape
  have u2 : ∀ r ∈ [ys, xs, ys], ∀ a ∈ r, a.shape = s := by
    simp only [List.mem_cons, List.not_mem_nil, or_false]
    rintro r (rfl | rfl | rfl)
    · exact hy.shape
    · exact hx.shape
    · exact hy.shape
  rw [concatenateRows_uniform u1 (by simp [nx, ny]), Except.ok_bind',
    concatenateRows_uniform u2 (by simp [nx, ny]), Except.ok_bind']
  rw [rowwiseDcovSqr_declines (sx := s) (sy := s), Except.ok_bind']
  · rfl
  · simp [nx]
  · simp [ny]
  · refine ⟨hx.dims, fun a ha => ?_⟩
    obtain ⟨b, hb, rfl⟩ := List.mem_map.1 ha
    obtain ⟨r, hr, hbr⟩ := List.mem_flatten.1 hb
    exact u1 r hr b hbr
  · refine ⟨hx.dims, fun a ha => ?_⟩
    obtain ⟨b, hb, rfl⟩ := List.mem_map.1 ha
    obtain ⟨r, hr, hbr⟩ := List.mem_flatten.1 hb
    exact u2 r hr b hbr
  · intro h'
    rw [List.flatten_cons, List.flatten_cons (l := ys)] at h'
    exact h ((CovApplies_concat nx ny _ _ _ _).1 h')

theorem map_ne {f : List (FP ℝ) → List (FP ℝ)} {r : Except PyErr (Option (List (FP ℝ)))}
    (h : r ≠ .error .notImplementedError ∧ r ≠ .ok none) :
    r.map (fun q => q.map f) ≠ .error .notImplementedError ∧ r.map (fun q => q.map f) ≠ .ok none := by
  cases r with
  | error e => exact ⟨fun h' => h.1 (by cases h'; rfl), fun h' => by cases h'⟩
  | ok q =>
    cases q with
    | none => exact absurd rfl h.2
    | some l => exact ⟨nofun, nofun⟩

theorem rowwiseFunction_applies {f : RowFn} {g} (hg : f.rowwiseFunction env = some g) {xs ys : List Arr}
    (h : OptimizedApplies f xs ys o) :
    g xs ys o ≠ .error .notImplementedError ∧ g xs ys o ≠ .ok none := by
  have hc : CovApplies xs ys o := ⟨h.first_x, h.first_y, h.exponent, h.method, h.compileMode⟩
  have hcov : ∀ u, rowwiseDcovSqr env u xs ys o ≠ .error .notImplementedError ∧
      rowwiseDcovSqr env u xs ys o ≠ .ok none := fun u => by
    rw [rowwiseDcovSqr_applies u hc]
    exact rowwiseAvl_ne xs ys u h.compileMode
  cases f <;> simp only [RowFn.rowwiseFunction, Option.some.injEq, reduceCtorEq] at hg <;> subst hg
  case dcovSqr => exact hcov _
  case uDcovSqr => exact hcov _
  case dcov => exact map_ne (hcov _)
  case dcorSqr => exact rowwiseDcorSqr_applies _ hc
  case uDcorSqr => exact rowwiseDcorSqr_applies _ hc
  case dcor => exact map_ne (rowwiseDcorSqr_applies _ hc)

theorem rowwiseFunction_declines {f : RowFn} {g} (hg : f.rowwiseFunction env = some g)
    {xs ys : List Arr} {sx sy : List ℕ} (hr : RowsOk f xs ys sx sy)
    (h : ¬ OptimizedApplies f xs ys o) : g xs ys o = .ok none := by
  have hc : ¬ CovApplies xs ys o := fun hc => h ⟨fun k hk => (by subst hk; cases hg), hc.1, hc.2.1,
    hc.2.2.1, hc.2.2.2.1, hc.2.2.2.2⟩
  have hcov : ∀ u, rowwiseDcovSqr env u xs ys o = .ok none := fun u =>
    rowwiseDcovSqr_declines u hr.nonempty_x hr.nonempty_y hr.x hr.y hc
  have hcor : f.isCorrelation = true → ∀ u, rowwiseDcorSqr env u xs ys o = .ok none := fun hf u => by
    have := hr.same hf
    subst this
    exact rowwiseDcorSqr_declines u hr.nonempty_x hr.nonempty_y hr.x hr.y hc
  cases f <;> simp only [RowFn.rowwiseFunction, Option.some.injEq, reduceCtorEq] at hg <;> subst hg
  case dcovSqr => exact hcov _
  case uDcovSqr => exact hcov _
  case dcov => simp [hcov, Except.map]
  case dcorSqr => exact hcor rfl _
  case uDcorSqr => exact hcor rfl _
  case dcor => simp [hcor rfl, Except.map]

/-! ### `rowwise` -/

theorem rowwise_naive (f : RowFn) (xs ys : List Arr) :
    rowwise env f xs ys .naive o = rowwiseMap env f xs ys o := by
  unfold rowwise
  rw [if_pos rfl]
  rfl

theorem rowwise_of_function {f : RowFn} {g} (hg : f.rowwiseFunction env = some g) (xs ys : List Arr)
    {mode : RowwiseMode} (hm : mode ≠ .naive) :
    rowwise env f xs ys mode o = (PyM.lift (g xs ys o) >>= fun r => match r with
      | some l => PyM.pure l
      | none => if mode = .optimized then PyM.throw .notImplementedError
        else rowwiseMap env f xs ys o) := by
  unfold rowwise
  rw [if_neg hm, hg]
  rfl

theorem rowwise_of_none {f : RowFn} (hg : f.rowwiseFunction env = none) (xs ys : List Arr)
    (mode : RowwiseMode) :
    rowwise env f xs ys mode o = if mode = .optimized then PyM.throw .notImplementedError
      else rowwiseMap env f xs ys o := by
  unfold rowwise
  rw [hg]
  simp only [ite_self]
  rfl

theorem forall₂_map_pyM {A B : Type} {f : A → PyM B} {l : List A} {r : List B}
    (h : List.Forall₂ (fun a b => (f a).out = .ok b) l r) : (l.mapM f).out = .ok r := by
  induction h with
  | nil => rfl
  | cons h _ ih => rw [List.mapM_cons, PyM.bind_ok h, PyM.bind_ok ih]; rfl

theorem PyM.pure_bind_eq {α β : Type} (a : α) (f : α → PyM β) : (PyM.pure a >>= f) = f a := by
  simp [Bind.bind, PyM.bind, PyM.pure]

/-! ### dtypes -/

theorem joinDTypes_float {l : List DType} (h : ∀ d ∈ l, d = .float64 ∨ d = .float32) :
    joinDTypes l = .float64 ∨ joinDTypes l = .float32 := by
  have key : ∀ (l : List DType) (a : DType), (a = .float64 ∨ a = .float32) →
      (∀ d ∈ l, d = .float64 ∨ d = .float32) →
      (l.foldl joinDType a = .float64 ∨ l.foldl joinDType a = .float32) := by
    intro l
    induction l with
    | nil => intro a ha _; exact ha
    | cons b l ih =>
      intro a ha hl
      refine ih _ ?_ fun d hd => hl d (by simp [hd])
      rcases ha with rfl | rfl <;> rcases hl b (by simp) with rfl | rfl <;> decide
  cases l with
  | nil => exact .inl rfl
  | cons a l => exact key l a (h a (by simp)) fun d hd => h d (by simp [hd])

theorem joinDTypes_int {l : List DType} (hl : l ≠ []) (h : ∀ d ∈ l, d = .int64) :
    joinDTypes l = .int64 := by
  have key : ∀ l : List DType, (∀ d ∈ l, d = .int64) → l.foldl joinDType .int64 = .int64 := by
    intro l
    induction l with
    | nil => intro _; rfl
    | cons b l ih =>
      intro hl
      rw [List.foldl_cons, hl b (by simp)]
      exact ih fun d hd => hl d (by simp [hd])
  cases l with
  | nil => exact absurd rfl hl
  | cons a l =>
    rw [h a (by simp)]
    exact key l fun d hd => h d (by simp [hd])

/-- The samples have the shape of `n` scalar observations. -/
theorem rowwiseFunction_returns {f : RowFn} {g} (hg : f.rowwiseFunction env = some g)
    {xs ys : List Arr} {sx sy : List ℕ} {n : ℕ} (hr : RowsOk f xs ys sx sy) (hn : 3 < n)
    (hN : n < 2 ^ 21) (hsx : sx = [n] ∨ sx = [n, 1]) (hsy : sy = [n] ∨ sy = [n, 1])
    (hdx : ∀ a ∈ xs, a.dtype = .float64 ∨ a.dtype = .float32)
    (hdy : ∀ a ∈ ys, a.dtype = .float64 ∨ a.dtype = .float32)
    (hl : xs.length = ys.length) (he : o.exponent = 1)
    (hm : o.method = .enum .auto ∨ o.method = .enum .avl) (hcm : o.compileMode ≠ .noCompile) :
    ∃ l, g xs ys o = .ok (some l) := by
  have nx := hr.nonempty_x
  have ny := hr.nonempty_y
  have fl : ∀ d, d = DType.float64 ∨ d = .float32 → d.isObject = false ∧ d ≠ .int64 := by
    rintro d (rfl | rfl) <;> decide
  have happ : CovApplies xs ys o := by
    refine ⟨?_, ?_, he, hm, hcm⟩
    · cases xs with
      | nil => exact absurd rfl nx
      | cons x xs => exact ⟨x, rfl, n, hn, by rw [hr.x.shape x (by simp)]; exact hsx⟩
    · cases ys with
      | nil => exact absurd rfl ny
      | cons y ys => exact ⟨y, rfl, n, hn, by rw [hr.y.shape y (by simp)]; exact hsy⟩
  have hcov : ∀ u, ∃ l, rowwiseDcovSqr env u xs ys o = .ok (some l) := by
    intro u
    rw [rowwiseDcovSqr_applies u happ]
    have dx := fl _ (joinDTypes_float (l := xs.map Arr.dtype) fun d hd => by
      obtain ⟨a, ha, rfl⟩ := List.mem_map.1 hd
      exact hdx a ha)
    have dy := fl _ (joinDTypes_float (l := ys.map Arr.dtype) fun d hd => by
      obtain ⟨a, ha, rfl⟩ := List.mem_map.1 hd
      exact hdy a ha)
    obtain ⟨l, h, _⟩ := (rowwiseAvl_eval (env := env) (u := u) hr.x.shape hr.y.shape hsx hsy).2.2 hcm
      dx.1 dy.1 dx.2 (.inl hl) rfl hn hN
    exact ⟨l, h⟩
  have hcor : f.isCorrelation = true → ∀ u, ∃ l, rowwiseDcorSqr env u xs ys o = .ok (some l) := by
    intro hf u
    have hs := hr.same hf
    subst hs
    have u1 : ∀ r ∈ [xs, xs, ys], ∀ a ∈ r, a.shape = sx := by
      simp only [List.mem_cons, List.not_mem_nil, or_false]
      rintro r (rfl | rfl | rfl)
      · exact hr.x.shape
      · exact hr.x.shape
      · exact hr.y.shape
    have u2 : ∀ r ∈ [ys, xs, ys], ∀ a ∈ r, a.shape = sx := by
      simp only [List.mem_cons, List.not_mem_nil, or_false]
      rintro r (rfl | rfl | rfl)
      · exact hr.y.shape
      · exact hr.x.shape
      · exact hr.y.shape
    have hall : ∀ l : List (List Arr), (∀ r ∈ l, r = xs ∨ r = ys) →
        ∀ d ∈ l.flatten.map Arr.dtype, d = .float64 ∨ d = .float32 := by
      intro l hl d hd
      obtain ⟨a, ha, rfl⟩ := List.mem_map.1 hd
      obtain ⟨r, hr', har⟩ := List.mem_flatten.1 ha
      rcases hl r hr' with rfl | rfl
      · exact hdx a har
      · exact hdy a har
    have hmap : ∀ l : List (List Arr), l ≠ [] → (∀ r ∈ l, r = xs ∨ r = ys) →
        joinDTypes ((l.flatten.map fun a => (⟨.numpy, joinDTypes (l.flatten.map Arr.dtype),
          a.data⟩ : Arr)).map Arr.dtype) = .float64 ∨
        joinDTypes ((l.flatten.map fun a => (⟨.numpy, joinDTypes (l.flatten.map Arr.dtype),
          a.data⟩ : Arr)).map Arr.dtype) = .float32 := by
      intro l _ hl
      refine joinDTypes_float fun d hd => ?_
      simp only [List.map_map, List.mem_map, Function.comp] at hd
      obtain ⟨a, _, rfl⟩ := hd
      exact joinDTypes_float (hall l hl)
    unfold rowwiseDcorSqr
    dsimp only
    rw [concatenateRows_uniform u1 (by simp [nx, ny]), Except.ok_bind',
      concatenateRows_uniform u2 (by simp [nx, ny]), Except.ok_bind']
    have m1 := fl _ (hmap [xs, xs, ys] (by simp) (by simp))
    have m2 := fl _ (hmap [ys, xs, ys] (by simp) (by simp))
    have s1 : ∀ (l : List (List Arr)) (d : DType), (∀ r ∈ l, ∀ a ∈ r, a.shape = sx) →
        ∀ a ∈ l.flatten.map fun a => (⟨.numpy, d, a.data⟩ : Arr), a.shape = sx := by
      intro l d h a ha
      obtain ⟨b, hb, rfl⟩ := List.mem_map.1 ha
      obtain ⟨r, hr', hbr⟩ := List.mem_flatten.1 hb
      exact h r hr' b hbr
    rw [rowwiseDcovSqr_applies]
    · obtain ⟨l, h, _⟩ := (rowwiseAvl_eval (env := env) (u := u) (s1 _ _ u1) (s1 _ _ u2) hsx hsx).2.2 hcm
        m1.1 m2.1 m1.2 (.inl (by simp [hl])) rfl hn hN
      rw [h, Except.ok_bind']
      exact ⟨_, rfl⟩
    · rw [List.flatten_cons, List.flatten_cons (l := ys)]
      exact (CovApplies_concat nx ny _ _ _ _).2 happ
  cases f <;> simp only [RowFn.rowwiseFunction, Option.some.injEq, reduceCtorEq] at hg <;> subst hg
  case dcovSqr => exact hcov _
  case uDcovSqr => exact hcov _
  case dcov =>
    obtain ⟨l, h⟩ := hcov false
    exact ⟨l.map sqrtClip, by simp [h, Except.map]⟩
  case dcorSqr => exact hcor rfl _
  case uDcorSqr => exact hcor rfl _
  case dcor =>
    obtain ⟨l, h⟩ := hcor rfl false
    exact ⟨l.map sqrtClip, by simp [h, Except.map]⟩

/-! ### Failures of the optimised implementation -/

theorem rowwiseFunction_integers {f : RowFn} {g} (hg : f.rowwiseFunction env = some g)
    {xs ys : List Arr} {sx sy : List ℕ} {n m : ℕ} (hr : RowsOk f xs ys sx sy) (hn : 3 < n) (hm' : 3 < m)
    (hsx : sx = [n] ∨ sx = [n, 1]) (hsy : sy = [m] ∨ sy = [m, 1])
    (hdx : ∀ a ∈ xs, a.dtype = .int64) (hdy : ∀ a ∈ ys, a.dtype = .int64) (he : o.exponent = 1)
    (hm : o.method = .enum .auto ∨ o.method = .enum .avl) (hcm : o.compileMode ≠ .noCompile) :
    g xs ys o = .error .typeError := by
  have nx := hr.nonempty_x
  have ny := hr.nonempty_y
  have happ : CovApplies xs ys o := by
    refine ⟨?_, ?_, he, hm, hcm⟩
    · cases xs with
      | nil => exact absurd rfl nx
      | cons x xs => exact ⟨x, rfl, n, hn, by rw [hr.x.shape x (by simp)]; exact hsx⟩
    · cases ys with
      | nil => exact absurd rfl ny
      | cons y ys => exact ⟨y, rfl, m, hm', by rw [hr.y.shape y (by simp)]; exact hsy⟩
  have hcov : ∀ u, rowwiseDcovSqr env u xs ys o = .error .typeError := by
    intro u
    rw [rowwiseDcovSqr_applies u happ]
    refine (rowwiseAvl_eval (env := env) (u := u) hr.x.shape hr.y.shape hsx hsy).2.1 hcm
      (.inr (.inr (joinDTypes_int (by simpa using nx) fun d hd => ?_)))
    obtain ⟨a, ha, rfl⟩ := List.mem_map.1 hd
    exact hdx a ha
  have hcor : f.isCorrelation = true → ∀ u, rowwiseDcorSqr env u xs ys o = .error .typeError := by
    intro hf u
    have hs := hr.same hf
    subst hs
    have u1 : ∀ r ∈ [xs, xs, ys], ∀ a ∈ r, a.shape = sx := by
      simp only [List.mem_cons, List.not_mem_nil, or_false]
      rintro r (rfl | rfl | rfl)
      · exact hr.x.shape
      · exact hr.x.shape
      · exact hr.y.shape
    have u2 : ∀ r ∈ [ys, xs, ys], ∀ a ∈ r, a.shape = sx := by
      simp only [List.mem_cons, List.not_mem_nil, or_false]
      rintro r (rfl | rfl | rfl)
      · exact hr.y.shape
      · exact hr.x.shape
      · exact hr.y.shape
    unfold rowwiseDcorSqr
    dsimp only
    rw [concatenateRows_uniform u1 (by simp [nx, ny]), Except.ok_bind',
      concatenateRows_uniform u2 (by simp [nx, ny]), Except.ok_bind']
    have s1 : ∀ (l : List (List Arr)) (d : DType), (∀ r ∈ l, ∀ a ∈ r, a.shape = sx) →
        ∀ a ∈ l.flatten.map fun a => (⟨.numpy, d, a.data⟩ : Arr), a.shape = sx := by
      intro l d h a ha
      obtain ⟨b, hb, rfl⟩ := List.mem_map.1 ha
      obtain ⟨r, hr', hbr⟩ := List.mem_flatten.1 hb
      exact h r hr' b hbr
    have hint : joinDTypes ([xs, xs, ys].flatten.map Arr.dtype) = .int64 := by
      refine joinDTypes_int (by simp [nx]) fun d hd => ?_
      obtain ⟨a, ha, rfl⟩ := List.mem_map.1 hd
      obtain ⟨r, hr', har⟩ := List.mem_flatten.1 ha
      simp only [List.mem_cons, List.not_mem_nil, or_false] at hr'
      rcases hr' with rfl | rfl | rfl
      · exact hdx a har
      · exact hdx a har
      · exact hdy a har
    rw [rowwiseDcovSqr_applies]
    · rw [(rowwiseAvl_eval (env := env) (u := u) (s1 _ _ u1) (s1 _ _ u2) hsx hsx).2.1 hcm]
      · rfl
      · refine .inr (.inr (joinDTypes_int (by simp [nx]) fun d hd => ?_))
        simp only [List.map_map, List.mem_map, Function.comp] at hd
        obtain ⟨a, _, rfl⟩ := hd
        exact hint
    · rw [List.flatten_cons, List.flatten_cons (l := ys)]
      exact (CovApplies_concat nx ny _ _ _ _).2 happ
  cases f <;> simp only [RowFn.rowwiseFunction, Option.some.injEq, reduceCtorEq] at hg <;> subst hg
  case dcovSqr => exact hcov _
  case uDcovSqr => exact hcov _
  case dcov => simp [hcov, Except.map]
  case dcorSqr => exact hcor rfl _
  case uDcorSqr => exact hcor rfl _
  case dcor => simp [hcor rfl, Except.map]

theorem checkHomogeneous_err {l : List Arr} {a b : Arr} (ha : a ∈ l) (hb : b ∈ l)
    (h : a.shape ≠ b.shape) : checkHomogeneous l = .error .valueError := by
  cases l with
  | nil => cases ha
  | cons c l =>
    unfold checkHomogeneous
    dsimp only
    rw [if_neg]
    intro hall
    rw [List.all_eq_true] at hall
    have : ∀ d ∈ c :: l, d.shape = c.shape := by
      simp only [List.mem_cons]
      rintro d (rfl | hd)
      · rfl
      · simpa using hall d hd
    exact h ((this a ha).trans (this b hb).symm)

theorem checkHomogeneous_cases (l : List Arr) :
    checkHomogeneous l = .ok () ∨ checkHomogeneous l = .error .valueError := by
  unfold checkHomogeneous
  split
  · exact .inl rfl
  · split_ifs
    · exact .inl rfl
    · exact .inr rfl

theorem concatenateRows_err {l : List (List Arr)} {a b : Arr} (ha : a ∈ l.flatten)
    (hb : b ∈ l.flatten) (h : a.shape ≠ b.shape) : concatenateRows l = .error .valueError := by
  unfold concatenateRows
  have h1 : l.forM checkHomogeneous = .ok () ∨ l.forM checkHomogeneous = .error .valueError := by
    clear ha hb
    induction l with
    | nil => exact .inl rfl
    | cons r l ih =>
      change (checkHomogeneous r >>= fun _ => l.forM checkHomogeneous) = _ ∨
        (checkHomogeneous r >>= fun _ => l.forM checkHomogeneous) = _
      rcases checkHomogeneous_cases r with h' | h'
      · rw [h', Except.ok_bind']; exact ih
      · rw [h']; exact .inr rfl
  rcases h1 with h1 | h1
  · rw [h1, Except.ok_bind']
    dsimp only
    split_ifs
    · rfl
    · change (checkHomogeneous l.flatten >>= fun _ => _) = _
      rw [checkHomogeneous_err ha hb h]
      rfl
  · rw [h1]; rfl

/-- Correlations of samples of different shapes. -/
theorem rowwiseFunction_shapes {f : RowFn} {g} (hg : f.rowwiseFunction env = some g)
    (hf : f.isCorrelation = true) {xs ys : List Arr} {a b : Arr} (ha : a ∈ xs ++ ys)
    (hb : b ∈ xs ++ ys) (h : a.shape ≠ b.shape) : g xs ys o = .error .valueError := by
  have hcor : ∀ u, rowwiseDcorSqr env u xs ys o = .error .valueError := by
    intro u
    unfold rowwiseDcorSqr
    dsimp only
    rw [concatenateRows_err (a := a) (b := b) (by simp at ha ⊢; tauto) (by simp at hb ⊢; tauto) h]
    rfl
  cases f <;> simp only [RowFn.rowwiseFunction, Option.some.injEq, reduceCtorEq] at hg <;> subst hg
  case dcovSqr => cases hf
  case uDcovSqr => cases hf
  case dcov => cases hf
  case dcorSqr => exact hcor _
  case uDcorSqr => exact hcor _
  case dcor => simp [hcor, Except.map]

/-- Covariances of univariate samples of different shapes in one list. -/
theorem rowwiseFunction_ragged {f : RowFn} {g} (hg : f.rowwiseFunction env = some g)
    {xs ys : List Arr} {a b : Arr} (happ : OptimizedApplies f xs ys o)
    (hab : (a ∈ xs ∧ b ∈ xs) ∨ (a ∈ ys ∧ b ∈ ys)) (h : a.shape ≠ b.shape) :
    g xs ys o = .error .valueError := by
  by_cases hf : f.isCorrelation = true
  · refine rowwiseFunction_shapes hg hf (a := a) (b := b) ?_ ?_ h <;> simp <;> tauto
  have hc : CovApplies xs ys o := ⟨happ.first_x, happ.first_y, happ.exponent, happ.method,
    happ.compileMode⟩
  have hcov : ∀ u, rowwiseDcovSqr env u xs ys o = .error .valueError := by
    intro u
    rw [rowwiseDcovSqr_applies u hc]
    unfold rowwiseAvl
    rcases checkHomogeneous_cases xs with h1 | h1
    · rw [h1, Except.ok_bind']
      rcases hab with ⟨ha, hb⟩ | ⟨ha, hb⟩
      · rw [checkHomogeneous_err ha hb h] at h1
        cases h1
      · rw [checkHomogeneous_err ha hb h]
        rfl
    · rw [h1]; rfl
  cases f <;> simp only [RowFn.rowwiseFunction, Option.some.injEq, reduceCtorEq] at hg <;> subst hg
  case dcovSqr => exact hcov _
  case uDcovSqr => exact hcov _
  case dcov => simp [hcov, Except.map]
  case dcorSqr => exact absurd rfl hf
  case uDcorSqr => exact absurd rfl hf
  case dcor => exact absurd rfl hf

end Dcor

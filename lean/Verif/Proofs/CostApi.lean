/-
The statistics of `Model/Cost.lean` are the values returned by the public functions.
-/
import Verif.Proofs.Cost
import Verif.Proofs.TermsOk

namespace Dcor

open Cost

variable {n : ℕ}

theorem avlImpl_v64 (env : Env) (sort : ℕ → ℕ) (compiled : Bool) (x y : Fin n → ℝ) (rv : Bool) (hn : 3 < n) :
    avlImpl env compiled ⟨.numpy, .float64, .vec n x⟩ ⟨.numpy, .float64, .vec n y⟩ ⟨n, x⟩ ⟨n, y⟩ rv
      = (fastTermsC env sort false compiled x y rv).out := by
  have h1 : (compiled && notFloat64 ⟨.numpy, .float64, .vec n x⟩ ⟨.numpy, .float64, .vec n y⟩) = false := by
    simp [notFloat64]
  have h2 : decimalWithFloat ⟨.numpy, .float64, .vec n x⟩ ⟨.numpy, .float64, .vec n y⟩ = false := by
    simp [decimalWithFloat, decimalClash]
  unfold avlImpl fastTermsC
  simp only [h1, h2, gt_iff_lt, hn, not_true_eq_false, Bool.false_eq_true, if_false, dite_true,
    out_bind, out_op, out_pure, avlTermsImplC_out]
  rfl

theorem mergesortImpl_v64 (env : Env) (sort : ℕ → ℕ) (compiled : Bool) (x y : Fin n → ℝ) (rv : Bool) (hn : 0 < n) :
    mergesortImpl env compiled ⟨.numpy, .float64, .vec n x⟩ ⟨.numpy, .float64, .vec n y⟩ ⟨n, x⟩ ⟨n, y⟩ rv
      = (fastTermsC env sort true compiled x y rv).out := by
  have h1 : (compiled && notFloat64 ⟨.numpy, .float64, .vec n x⟩ ⟨.numpy, .float64, .vec n y⟩) = false := by
    simp [notFloat64]
  have h2 : decimalWithFloat ⟨.numpy, .float64, .vec n x⟩ ⟨.numpy, .float64, .vec n y⟩ = false := by
    simp [decimalWithFloat, decimalClash]
  have h3 : (compiled && n == 0) = false := by
    have : (n == 0) = false := by simp; omega
    simp [this]
  unfold mergesortImpl fastTermsC
  have h6 : (Arr.mk .numpy .float64 (.vec n x)).dtype.isObject = false := rfl
  have h8 : ∀ u : ℕ, ¬ ((Arr.mk .numpy .float64 (.vec n y)).dtype = .int64 ∧
      (Arr.mk .numpy .float64 (.vec n x)).dtype ≠ .int64 ∧ u > 0) := fun u h => by simp at h
  simp only [h1, h2, h3, h6, h8, Bool.false_eq_true, if_false, if_true, dite_true, le_refl, Bool.false_and,
    out_bind, out_op, out_pure, mergesortTermsImplC_out]
  rfl

/-- The terms of the fast methods. -/
theorem dcovTerms_v64 (env : Env) (sort : ℕ → ℕ) (m : Method) (hm : m ≠ .naive) (cm : CompileMode)
    (hcm : cm ≠ .compileParallel) (x y : Fin n → ℝ) (rv : Bool) (hn : 3 < n) :
    (dcovTerms env m ⟨.numpy, .float64, .vec n x⟩ ⟨.numpy, .float64, .vec n y⟩ 1 cm rv).out
      = (fastTermsC env sort (m == .mergesort) (cm != .noCompile) x y rv).out := by
  have key : ∀ (w : Warn) (merge : Bool) (impl : Bool → Vec1 → Vec1 → Except PyErr Terms),
      (∀ c, impl c ⟨n, x⟩ ⟨n, y⟩ = (fastTermsC env sort merge c x y rv).out) →
      (fastTerms w impl ⟨.numpy, .float64, .vec n x⟩ ⟨.numpy, .float64, .vec n y⟩ 1 cm).out
        = (fastTermsC env sort merge (cm != .noCompile) x y rv).out := by
    intro w merge impl himpl
    have hok : ∀ c, ∃ t, (fastTermsC env sort merge c x y rv).out = .ok t := by
      intro c
      cases merge
      · obtain ht := avlTermsImpl_eq_permTerms c (env.argsort c) x y hn
        unfold fastTermsC
        simp only [Bool.false_eq_true, if_false, out_bind, out_op, out_pure, avlTermsImplC_out, ht]
        exact ⟨_, rfl⟩
      · obtain ⟨u, ht⟩ := mergesortTermsImpl_eq isGe_le (env.argsort c) x y (show 0 < n by omega)
        unfold fastTermsC
        simp only [if_true, out_bind, out_op, out_pure, mergesortTermsImplC_out]
        change ∃ t, (mergesortTermsImpl (fun a b : ℝ => decide (b ≤ a)) (env.argsort c) x y >>= fun r => _) = _
        rw [ht]
        exact ⟨_, rfl⟩
    have hns : commonNs (.numpy : Namespace) .numpy = .numpy := by simp [commonNs]
    unfold fastTerms
    simp only [ne_eq, not_true_eq_false, if_false, transformTo1d, PyM.lift_ok_bind, hns]
    cases cm with
    | compileParallel => exact absurd rfl hcm
    | noCompile =>
      obtain ⟨t, e⟩ := hok false
      simp [implsDict, tryImpls, himpl, e]
    | compileCpu =>
      have hb : (CompileMode.compileCpu != CompileMode.noCompile) = true := rfl
      obtain ⟨t, e⟩ := hok true
      simp [implsDict, tryImpls, himpl, e, hb]
    | auto =>
      have hb : (CompileMode.auto != CompileMode.noCompile) = true := rfl
      obtain ⟨t, e⟩ := hok true
      simp [implsDict, tryImpls, himpl, e, hb]
  have havl := key .fallbackAvl false
    (fun c xv yv => avlImpl env c ⟨.numpy, .float64, .vec n x⟩ ⟨.numpy, .float64, .vec n y⟩ xv yv rv) (fun c => avlImpl_v64 env sort c x y rv hn)
  cases m with
  | naive => exact absurd rfl hm
  | avl => exact havl
  | mergesort =>
    exact key .fallbackMergesort true
      (fun c xv yv => mergesortImpl env c ⟨.numpy, .float64, .vec n x⟩ ⟨.numpy, .float64, .vec n y⟩ xv yv rv) (fun c => mergesortImpl_v64 env sort c x y rv (by omega))
  | auto =>
    have hc : commonNs (.numpy : Namespace) .numpy = .numpy ∧
        canUseFastAlgorithm ⟨.numpy, .float64, .vec n x⟩ ⟨.numpy, .float64, .vec n y⟩ 1 = true := by
      simp [commonNs, canUseFastAlgorithm, isRandomVariable, Arr.shape0, hn]
    show (dcovTermsAuto env _ _ 1 cm rv).out = _
    unfold dcovTermsAuto
    rw [if_pos hc]
    exact havl

theorem PyM.out_bind {α β : Type} (m : PyM α) (f : α → PyM β) :
    (m >>= f).out = m.out >>= fun a => (f a).out := by
  show (PyM.bind m f).out = _
  unfold PyM.bind
  cases e : m.out <;> rfl

/-- The squared covariance. -/
theorem dcovSqr_v64 (env : Env) (sort : ℕ → ℕ) (m : Method) (hm : m ≠ .naive) (cm : CompileMode)
    (hcm : cm ≠ .compileParallel) (x y : Fin n → ℝ) (bias : Bool) (hn : 3 < n) :
    (dcovSqr env m ⟨.numpy, .float64, .vec n x⟩ ⟨.numpy, .float64, .vec n y⟩ 1 cm bias).out
      = (covSqrC env sort (m == .mergesort) (cm != .noCompile) x y bias).out := by
  unfold dcovSqr covSqrC
  rw [PyM.out_bind, dcovTerms_v64 env sort m hm cm hcm x y false hn, out_bind]
  rfl

/-- The squared statistics. -/
theorem statsSqr_v64 (env : Env) (sort : ℕ → ℕ) (m : Method) (hm : m ≠ .naive) (cm : CompileMode)
    (hcm : cm ≠ .compileParallel) (x y : Fin n → ℝ) (bias : Bool) (hn : 3 < n) :
    (statsSqr env m ⟨.numpy, .float64, .vec n x⟩ ⟨.numpy, .float64, .vec n y⟩ 1 cm bias).out
      = (statsSqrC env sort (m == .mergesort) (cm != .noCompile) x y bias).out := by
  unfold statsSqr statsSqrC
  rw [PyM.out_bind, dcovTerms_v64 env sort m hm cm hcm x y true hn, out_bind]
  congr 1
  funext t
  have hd : mixedDecimal ⟨.numpy, .float64, .vec n x⟩ ⟨.numpy, .float64, .vec n y⟩ = false := rfl
  dsimp only
  rcases hA : t.varA with _ | va <;> rcases hB : t.varB with _ | vb
  · rfl
  · rfl
  · rfl
  · simp only [PyM.out_bind, out_bind, out_op, out_pure, PyM.lift_out, hd, Bool.false_and, Bool.false_eq_true, if_false]
    rfl

theorem fastTermsC_bnd (env : Env) (sort : ℕ → ℕ) (merge compiled : Bool) (x y : Fin n → ℝ) (rv : Bool) :
    Bnd (fastTermsC env sort merge compiled x y rv)
      ((if merge then 2 * sort n + 54 * (n * Nat.clog 2 n) + 59 * n + 4
        else 3 * sort n + 112 * (n * Nat.clog 2 n) + 181 * n) + (if rv then 8 * n else 0)) (fun _ => 0) := by
  unfold fastTermsC
  have hrest : ∀ (core : CoreTerms ℝ n), Bnd (do
      op (if rv then 8 * n else 0) (.ok ())
      pure {
        n := n
        core := core
        varA := if rv then some (varTerm x) else none
        varB := if rv then some (varTerm y) else none
        kinds := if compiled then ⟨.python, .numpy, .python, .python⟩
                 else if merge then ⟨.python, .numpy, .numpy, .numpy⟩
                 else ⟨.numpy, .numpy, .numpy, .numpy⟩ } : Cost Terms) (if rv then 8 * n else 0) (fun _ => 0) :=
    fun core => Bnd.op_bind (k' := 0) (fun _ => Bnd.of_pure (le_refl 0)) (by omega)
  cases merge
  · exact Bnd.seq (avlTermsImplC_bnd (sort n) compiled (env.argsort compiled) x y) hrest (le_refl _)
  · simp only [if_true, pure_bind]
    exact Bnd.seq (mergesortTermsImplC_bnd (sort n) _ (env.argsort compiled) x y) (fun r => hrest r.1) (le_refl _)

theorem covSqrC_bnd (env : Env) (sort : ℕ → ℕ) (merge compiled : Bool) (x y : Fin n → ℝ) (bias : Bool) :
    (covSqrC env sort merge compiled x y bias).steps ≤
      (if merge then 2 * sort n + 54 * (n * Nat.clog 2 n) + 62 * n + 4
        else 3 * sort n + 112 * (n * Nat.clog 2 n) + 184 * n) := by
  apply Bnd.steps_le (r := fun _ => 0)
  unfold covSqrC
  refine Bnd.seq (k₂ := 3 * n) (fastTermsC_bnd env sort merge compiled x y false)
    (fun t => Bnd.op (fun _ => le_refl _) (le_refl _)) ?_
  cases merge
  · simp only [Bool.false_eq_true, if_false]; omega
  · simp only [Bool.false_eq_true, if_false, if_true]; omega

theorem statsSqrC_bnd (env : Env) (sort : ℕ → ℕ) (merge compiled : Bool) (x y : Fin n → ℝ) (bias : Bool) :
    (statsSqrC env sort merge compiled x y bias).steps ≤
      (if merge then 2 * sort n + 54 * (n * Nat.clog 2 n) + 76 * n + 4
        else 3 * sort n + 112 * (n * Nat.clog 2 n) + 198 * n) := by
  apply Bnd.steps_le (r := fun _ => 0)
  unfold statsSqrC
  refine Bnd.seq (k₂ := 9 * n) (fastTermsC_bnd env sort merge compiled x y true) (fun t => ?_) ?_
  · dsimp only
    split
    · refine Bnd.op_bind (k' := 6 * n) (fun _ => ?_) (by omega)
      refine Bnd.op_bind (k' := 3 * n) (fun _ => ?_) (by omega)
      exact Bnd.op_bind (k' := 0) (fun _ => Bnd.of_pure (le_refl 0)) (by omega)
    · exact Bnd.op (fun _ => Nat.zero_le _) (Nat.zero_le _)
  · cases merge
    · simp only [Bool.false_eq_true, if_false, if_true]; omega
    · simp only [if_true]; omega

/-! ### Lower bounds -/

namespace Cost

variable {α β : Type}

/-- A run without exceptions takes at least `k` steps. -/
def Low (m : Cost α) (k : ℕ) : Prop := ∀ a, m.out = .ok a → k ≤ m.steps

theorem Low.mono {m : Cost α} {k k' : ℕ} (h : Low m k) (hk : k' ≤ k) : Low m k' := fun a ha => hk.trans (h a ha)

theorem Low.bind {m : Cost α} {f : α → Cost β} {k₁ k₂ k : ℕ} (hm : Low m k₁) (hf : ∀ a, m.out = .ok a → Low (f a) k₂)
    (hk : k ≤ k₁ + k₂) : Low (m >>= f) k := by
  intro b hb
  rw [out_bind] at hb
  cases e : m.out with
  | error e' => rw [e] at hb; cases hb
  | ok a =>
    rw [e] at hb
    have h1 := hm a e
    have h2 := hf a e b hb
    have : (m >>= f).steps = m.steps + (f a).steps := by
      rw [bind_def]; unfold Cost.bind; simp only [e]
    omega

theorem Low.zero (m : Cost α) : Low m 0 := fun _ _ => Nat.zero_le _

theorem Low.op (c : ℕ) (e : Except PyErr α) : Low (Cost.op c e) c := fun _ _ => le_refl _

theorem Low.foldlM {f : β → α → Cost β} {w : ℕ} (l : List α) (hf : ∀ b a, Low (f b a) w) (b : β) :
    Low (l.foldlM f b) (l.length * w) := by
  induction l generalizing b with
  | nil => exact (Low.zero _).mono (by simp)
  | cons a l ih =>
    rw [List.foldlM_cons]
    refine Low.bind (hf b a) (fun b' _ => ih b') (le_of_eq ?_)
    rw [List.length_cons]
    ring

end Cost

theorem mergePassesC_low {R Y : Type} [AddCommGroup R] {V : ℕ} (ge : Y → Y → Bool) (y : Fin n → Y)
    (weights : Fin n → Fin V → R) (d : ℕ) :
    ∀ (len : ℕ) (hlen : 0 < len) (prev cur : Fin n → ℕ) (ws : Fin n → Fin V → R) (updates : ℕ),
      len * 2 ^ d < 2 * n → Low (mergePassesC ge y weights len hlen prev cur ws updates) (3 * n * V * d) := by
  induction d with
  | zero => intro len hlen prev cur ws updates _; exact Low.zero _
  | succ d ih =>
    intro len hlen prev cur ws updates h
    have hp : 0 < 2 ^ d := by positivity
    have e : len * 2 ^ (d + 1) = 2 * (len * 2 ^ d) := by ring
    have hn : len < n := by
      have : len * 1 ≤ len * 2 ^ d := Nat.mul_le_mul_left len hp
      omega
    rw [mergePassesC, if_pos hn]
    refine Low.bind (Low.op _ _) (fun wc _ => ?_) (k₂ := 3 * n * V * d) (le_of_eq (by ring))
    refine Low.bind (Low.zero _) (fun st _ => ?_) (k₂ := 3 * n * V * d) (by omega)
    refine ih (2 * len) (by omega) _ _ _ _ ?_
    calc 2 * len * 2 ^ d = len * 2 ^ (d + 1) := by ring
      _ < 2 * n := h

theorem clog_low {n : ℕ} (hn : 1 < n) : 1 * 2 ^ Nat.clog 2 n < 2 * n := by
  have h1 : 2 ^ (Nat.clog 2 n - 1) < n := Nat.pow_pred_clog_lt_self (by norm_num) hn
  have h2 : 0 < Nat.clog 2 n := Nat.clog_pos (by norm_num) hn
  have e : 2 ^ Nat.clog 2 n = 2 * 2 ^ (Nat.clog 2 n - 1) := by
    obtain ⟨k, hk⟩ : ∃ k, Nat.clog 2 n = k + 1 := ⟨_, (Nat.succ_pred_eq_of_pos h2).symm⟩
    rw [hk, Nat.add_sub_cancel]
    ring
  omega

theorem mergesortTermsImplC_low (sort : ℕ) (ge : ℝ → ℝ → Bool) (argsort : (Fin n → ℝ) → Equiv.Perm (Fin n))
    (x y : Fin n → ℝ) (hn : 1 < n) :
    Low (mergesortTermsImplC sort ge argsort x y) (2 * sort + 12 * (n * Nat.clog 2 n)) := by
  unfold mergesortTermsImplC computeAijbijTermC computeWeightSumsC
  refine Low.bind (k₂ := 2 * sort + 12 * (n * Nat.clog 2 n)) (Low.zero _) (fun _ _ => ?_) (by omega)
  refine Low.bind (k₂ := sort + 12 * (n * Nat.clog 2 n)) (Low.op _ _) (fun o _ => ?_) (by omega)
  refine Low.bind (k₂ := sort + 12 * (n * Nat.clog 2 n)) (Low.zero _) (fun xs _ => ?_) (by omega)
  refine Low.bind (k₂ := sort + 12 * (n * Nat.clog 2 n)) (Low.zero _) (fun ys _ => ?_) (by omega)
  refine Low.bind (k₁ := 12 * (n * Nat.clog 2 n)) (k₂ := sort) ?_ (fun r _ => ?_) (by omega)
  · refine Low.bind (k₂ := 12 * (n * Nat.clog 2 n)) (Low.zero _) (fun w _ => ?_) (by omega)
    refine Low.bind (k₁ := 12 * (n * Nat.clog 2 n)) (k₂ := 0) ?_ (fun _ _ => Low.zero _) (by omega)
    refine Low.bind (k₂ := 12 * (n * Nat.clog 2 n)) (Low.zero _) (fun _ _ => ?_) (by omega)
    exact (mergePassesC_low ge ys w (Nat.clog 2 n) 1 (by omega) _ _ _ _ (clog_low hn)).mono (le_of_eq (by ring))
  · obtain ⟨aijbij, updates⟩ := r
    dsimp only
    refine Low.bind (k₂ := sort) (Low.zero _) (fun a _ => ?_) (by omega)
    exact Low.bind (k₂ := 0) (Low.op _ _) (fun a _ => Low.zero _) (by omega)

theorem dyadUpdateC_low (y : Fin n → ℤ) (c gamma : Fin n → ℝ) {sLen : ℕ}
    (lMax : ℕ) (s : Fin sLen → ℝ) (ps : Fin lMax → ℤ) :
    Low (dyadUpdateC y c gamma lMax s ps) (12 * (n * lMax)) := by
  unfold dyadUpdateC
  refine Low.bind (k₂ := 12 * (n * lMax)) (Low.zero _) (fun s0 _ => ?_) (by omega)
  exact Low.bind (k₂ := 0) (Low.op _ _) (fun _ _ => Low.zero _) (by omega)

theorem dyadStepCompiledC_low {sLen lMax : ℕ} (y : Fin n → ℤ) (c : Fin n → ℝ) (ps : Fin lMax → ℤ)
    (st : (Fin n → ℝ) × (Fin sLen → ℝ)) (i : ℕ) : Low (dyadStepCompiledC y c ps st i) (21 * lMax) := by
  unfold dyadStepCompiledC compiledStep3aC compiledStep3bcC
  refine Low.bind (k₁ := lMax * 13) (k₂ := lMax * 8) ?_ (fun s _ => ?_) (by omega)
  · have h := Low.foldlM (w := 13) (f := compiledBody3aC (sLen := sLen) y c ps i) (List.range lMax) ?_ st.2
    · rwa [List.length_range] at h
    · intro b l
      unfold compiledBody3aC
      refine Low.bind (k₂ := 12) (Low.op _ _) (fun _ _ => ?_) (by omega)
      refine Low.bind (k₂ := 8) (Low.op _ _) (fun _ _ => ?_) (by omega)
      refine Low.bind (k₂ := 6) (Low.op _ _) (fun _ _ => ?_) (by omega)
      refine Low.bind (k₂ := 4) (Low.op _ _) (fun _ _ => ?_) (by omega)
      refine Low.bind (k₂ := 3) (Low.op _ _) (fun _ _ => ?_) (by omega)
      refine Low.bind (k₂ := 2) (Low.op _ _) (fun _ _ => ?_) (by omega)
      exact Low.op _ _
  · have h := Low.foldlM (w := 8) (f := compiledBody3bcC y ps i s) (List.range lMax) ?_ st.1
    · rw [List.length_range] at h
      exact Low.bind (k₂ := 0) h (fun _ _ => Low.zero _) (by omega)
    · intro b l
      unfold compiledBody3bcC
      refine Low.bind (k₂ := 7) (Low.op _ _) (fun _ _ => ?_) (by omega)
      refine Low.bind (k₂ := 2) (Low.op _ _) (fun _ _ => ?_) (by omega)
      exact Low.bind (k₂ := 0) (Low.op _ _) (fun _ _ => Low.zero _) (by omega)

theorem dyadUpdateCompiledC_low (y : Fin n → ℤ) (c gamma : Fin n → ℝ) {sLen : ℕ}
    (lMax : ℕ) (s : Fin sLen → ℝ) (ps : Fin lMax → ℤ) (hn : 3 < n) :
    Low (dyadUpdateCompiledC y c gamma lMax s ps) (12 * (n * lMax)) := by
  unfold dyadUpdateCompiledC
  refine Low.bind (k₂ := 12 * (n * lMax)) (Low.zero _) (fun s0 _ => ?_) (by omega)
  refine Low.bind (k₂ := 0) (Low.foldlM _ (dyadStepCompiledC_low y c ps) _) (fun _ _ => Low.zero _) ?_
  rw [List.length_range']
  calc 12 * (n * lMax) = (12 * n) * lMax := by ring
    _ ≤ (21 * (n - 1)) * lMax := Nat.mul_le_mul_right _ (by omega)
    _ = _ := by ring

theorem avlTermsImplC_low (sort : ℕ) (compiled : Bool) (argsort : (Fin n → ℝ) → Equiv.Perm (Fin n))
    (x y : Fin n → ℝ) (hn : 3 < n) :
    Low (avlTermsImplC sort compiled argsort x y) (3 * sort + 48 * (n * Nat.clog 2 n)) := by
  unfold avlTermsImplC getImplArgsC
  simp only [gt_iff_lt, hn, not_true_eq_false, if_false]
  have hp : ∀ (a : ImplArgs ℝ n) (ny : Fin n → ℤ) (i : Fin 4), Low (partialSum2dC compiled ny (a.c i) a.ix a.iyReord
      (a.sxC i) (a.syC i) (a.cSum i) a.lMax (fun _ => 0 : Fin (2 ^ (a.lMax + 1)) → ℝ) (posSums a.lMax)
      (fun _ => 0)) (12 * (n * a.lMax)) := by
    intro a ny i
    unfold partialSum2dC
    cases compiled
    · exact Low.bind (k₂ := 0) (dyadUpdateC_low _ _ _ _ _ _) (fun _ _ => Low.zero _) (by omega)
    · exact Low.bind (k₂ := 0) (dyadUpdateCompiledC_low _ _ _ _ _ _ hn) (fun _ _ => Low.zero _) (by omega)
  refine Low.bind (k₂ := 48 * (n * Nat.clog 2 n)) (Low.op _ _) (fun a ha => ?_) (by omega)
  have hl : a.lMax = Nat.clog 2 n := by
    simp only [out_op, Except.ok.injEq] at ha
    rw [← ha]
    rfl
  simp only [← hl]
  generalize hL : n * a.lMax = L at hp ⊢
  refine Low.bind (k₂ := 48 * L) (Low.zero _) (fun _ _ => ?_) (by omega)
  refine Low.bind (k₂ := 48 * L) (Low.zero _) (fun _ _ => ?_) (by omega)
  refine Low.bind (k₂ := 48 * L) (Low.zero _) (fun _ _ => ?_) (by omega)
  refine Low.bind (k₂ := 48 * L) (Low.zero _) (fun _ _ => ?_) (by omega)
  refine Low.bind (k₂ := 48 * L) (Low.zero _) (fun _ _ => ?_) (by omega)
  refine Low.bind (k₂ := 48 * L) (Low.zero _) (fun _ _ => ?_) (by omega)
  refine Low.bind (k₂ := 48 * L) (Low.zero _) (fun _ _ => ?_) (by omega)
  refine Low.bind (k₂ := 48 * L) (Low.zero _) (fun _ _ => ?_) (by omega)
  refine Low.bind (k₂ := 48 * L) (Low.zero _) (fun _ _ => ?_) (by omega)
  refine Low.bind (k₂ := 48 * L) (Low.zero _) (fun _ _ => ?_) (by omega)
  refine Low.bind (k₂ := 48 * L) (Low.zero _) (fun ny _ => ?_) (by omega)
  refine Low.bind (k₁ := 12 * L) (k₂ := 36 * L) (hL ▸ hp a ny 0) (fun _ _ => ?_) (by omega)
  refine Low.bind (k₁ := 12 * L) (k₂ := 24 * L) (hL ▸ hp a ny 1) (fun _ _ => ?_) (by omega)
  refine Low.bind (k₁ := 12 * L) (k₂ := 12 * L) (hL ▸ hp a ny 2) (fun _ _ => ?_) (by omega)
  exact Low.bind (k₁ := 12 * L) (k₂ := 0) (hL ▸ hp a ny 3) (fun _ _ => Low.zero _) (by omega)

theorem fastTermsC_low (env : Env) (sort : ℕ → ℕ) (merge compiled : Bool) (x y : Fin n → ℝ) (rv : Bool) (hn : 3 < n) :
    Low (fastTermsC env sort merge compiled x y rv) (2 * sort n + 12 * (n * Nat.clog 2 n)) := by
  unfold fastTermsC
  cases merge
  · exact Low.bind (k₂ := 0) (avlTermsImplC_low (sort n) compiled (env.argsort compiled) x y hn)
      (fun _ _ => Low.zero _) (by omega)
  · simp only [if_true, pure_bind]
    exact Low.bind (k₂ := 0) (mergesortTermsImplC_low (sort n) _ (env.argsort compiled) x y (by omega))
      (fun _ _ => Low.zero _) (by omega)

theorem covSqrC_low (env : Env) (sort : ℕ → ℕ) (merge compiled : Bool) (x y : Fin n → ℝ) (bias : Bool) (hn : 3 < n) :
    Low (covSqrC env sort merge compiled x y bias) (2 * sort n + 12 * (n * Nat.clog 2 n)) :=
  Low.bind (k₂ := 0) (fastTermsC_low env sort merge compiled x y false hn) (fun _ _ => Low.zero _) (by omega)

theorem statsSqrC_low (env : Env) (sort : ℕ → ℕ) (merge compiled : Bool) (x y : Fin n → ℝ) (bias : Bool) (hn : 3 < n) :
    Low (statsSqrC env sort merge compiled x y bias) (2 * sort n + 12 * (n * Nat.clog 2 n)) :=
  Low.bind (k₂ := 0) (fastTermsC_low env sort merge compiled x y true hn) (fun _ _ => Low.zero _) (by omega)

end Dcor

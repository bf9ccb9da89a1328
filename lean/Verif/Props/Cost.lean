/-
C83: the fast methods take a time proportional to `n log n`.
-/
import Verif.Proofs.CostApi
import Verif.Proofs.Api
import Verif.Props.Witness

namespace Dcor.Props

open Dcor

/-- The squared covariances with a fast method and the number of steps needed to compute them: the counting programs return
what the public functions return, and take at most `3 sort(n) + 112 n ⌈log₂ n⌉ + 184 n` steps with the AVL method (and the
automatic selection) and `2 sort(n) + 54 n ⌈log₂ n⌉ + 62 n + 4` with mergesort, where `sort(n)` is the time of `np.argsort`. -/
theorem C83_covariance (env : Env) (sort : ℕ → ℕ) (m : Method) (hm : m ≠ .naive) (cm : CompileMode)
    (hcm : cm ≠ .compileParallel) {n : ℕ} (hn : 3 < n) (x y : Fin n → ℝ) :
    (distanceCovarianceSqr env (npVec x) (npVec y) { method := .enum m, compileMode := cm }).out
        = (covSqrC env sort (m == .mergesort) (cm != .noCompile) x y false).out ∧
      (uDistanceCovarianceSqr env (npVec x) (npVec y) { method := .enum m, compileMode := cm }).out
        = (covSqrC env sort (m == .mergesort) (cm != .noCompile) x y true).out ∧
      ∀ bias, (covSqrC env sort (m == .mergesort) (cm != .noCompile) x y bias).steps ≤
        if m = .mergesort then 2 * sort n + 54 * (n * Nat.clog 2 n) + 62 * n + 4
        else 3 * sort n + 112 * (n * Nat.clog 2 n) + 184 * n := by
  refine ⟨?_, ?_, fun bias => ?_⟩
  · show (dcovSqr env m (npVec x) (npVec y) 1 cm false).out = _
    exact dcovSqr_v64 env sort m hm cm hcm x y false hn
  · show (dcovSqr env m (npVec x) (npVec y) 1 cm true).out = _
    exact dcovSqr_v64 env sort m hm cm hcm x y true hn
  · have h := covSqrC_bnd env sort (m == .mergesort) (cm != .noCompile) x y bias
    cases m <;> exact h

/-- The same for the functions that return the covariance, the correlation and the variances. -/
theorem C83_statistics (env : Env) (sort : ℕ → ℕ) (m : Method) (hm : m ≠ .naive) (cm : CompileMode)
    (hcm : cm ≠ .compileParallel) {n : ℕ} (hn : 3 < n) (x y : Fin n → ℝ) :
    (distanceStatsSqr env (npVec x) (npVec y) { method := .enum m, compileMode := cm }).out
        = (statsSqrC env sort (m == .mergesort) (cm != .noCompile) x y false).out ∧
      (uDistanceStatsSqr env (npVec x) (npVec y) { method := .enum m, compileMode := cm }).out
        = (statsSqrC env sort (m == .mergesort) (cm != .noCompile) x y true).out ∧
      (distanceCorrelationSqr env (npVec x) (npVec y) { method := .enum m, compileMode := cm }).out
        = (statsSqrC env sort (m == .mergesort) (cm != .noCompile) x y false).out.map Stats.correlationXY ∧
      (uDistanceCorrelationSqr env (npVec x) (npVec y) { method := .enum m, compileMode := cm }).out
        = (statsSqrC env sort (m == .mergesort) (cm != .noCompile) x y true).out.map Stats.correlationXY ∧
      ∀ bias, (statsSqrC env sort (m == .mergesort) (cm != .noCompile) x y bias).steps ≤
        if m = .mergesort then 2 * sort n + 54 * (n * Nat.clog 2 n) + 76 * n + 4
        else 3 * sort n + 112 * (n * Nat.clog 2 n) + 198 * n := by
  have h : ∀ bias, (statsSqr env m (npVec x) (npVec y) 1 cm bias).out
      = (statsSqrC env sort (m == .mergesort) (cm != .noCompile) x y bias).out :=
    fun bias => statsSqr_v64 env sort m hm cm hcm x y bias hn
  have hc : ∀ bias, (statsSqr env m (npVec x) (npVec y) 1 cm bias >>= fun s => PyM.pure s.correlationXY).out
      = (statsSqrC env sort (m == .mergesort) (cm != .noCompile) x y bias).out.map Stats.correlationXY := by
    intro bias
    rw [PyM.out_bind, h bias]
    cases (statsSqrC env sort (m == .mergesort) (cm != .noCompile) x y bias).out <;> rfl
  refine ⟨h false, h true, hc false, hc true, fun bias => ?_⟩
  have h := statsSqrC_bnd env sort (m == .mergesort) (cm != .noCompile) x y bias
  cases m <;> exact h

/-- If the time of `np.argsort` is at most `K n ⌈log₂ n⌉` then the time of the statistics is at most
`(3 K + 211) n ⌈log₂ n⌉`, for every fast method and compile mode. -/
theorem C83_loglinear (env : Env) (sort : ℕ → ℕ) (K : ℕ) (hsort : ∀ n, sort n ≤ K * (n * Nat.clog 2 n))
    (merge compiled bias : Bool) {n : ℕ} (hn : 3 < n) (x y : Fin n → ℝ) :
    (covSqrC env sort merge compiled x y bias).steps ≤ (3 * K + 211) * (n * Nat.clog 2 n) ∧
      (statsSqrC env sort merge compiled x y bias).steps ≤ (3 * K + 211) * (n * Nat.clog 2 n) := by
  have h2 : 2 ≤ Nat.clog 2 n := by
    by_contra hlt
    have h := Nat.le_pow_clog (b := 2) (by norm_num) n
    have h4 : 2 ^ Nat.clog 2 n ≤ 2 ^ 1 := Nat.pow_le_pow_right (by norm_num) (by omega)
    omega
  have h3 : n * 2 ≤ n * Nat.clog 2 n := Nat.mul_le_mul_left n h2
  have hs := hsort n
  have e : (3 * K + 211) * (n * Nat.clog 2 n) = 3 * (K * (n * Nat.clog 2 n)) + 211 * (n * Nat.clog 2 n) := by ring
  rw [e]
  have hc := covSqrC_bnd env sort merge compiled x y bias
  have ht := statsSqrC_bnd env sort merge compiled x y bias
  generalize n * Nat.clog 2 n = L at *
  generalize K * L = M at *
  cases merge
  · simp only [Bool.false_eq_true, if_false] at hc ht
    constructor <;> omega
  · simp only [if_true] at hc ht
    constructor <;> omega

/-- The order is exact: a call that returns takes at least `2 sort(n) + 12 n ⌈log₂ n⌉` steps. -/
theorem C83_exact_order (env : Env) (sort : ℕ → ℕ) (m : Method) (hm : m ≠ .naive) (cm : CompileMode)
    (hcm : cm ≠ .compileParallel) {n : ℕ} (hn : 3 < n) (x y : Fin n → ℝ) :
    (∀ v, (distanceCovarianceSqr env (npVec x) (npVec y) { method := .enum m, compileMode := cm }).out = .ok v →
        2 * sort n + 12 * (n * Nat.clog 2 n) ≤
          (covSqrC env sort (m == .mergesort) (cm != .noCompile) x y false).steps) ∧
      ∀ s, (distanceStatsSqr env (npVec x) (npVec y) { method := .enum m, compileMode := cm }).out = .ok s →
        2 * sort n + 12 * (n * Nat.clog 2 n) ≤
          (statsSqrC env sort (m == .mergesort) (cm != .noCompile) x y false).steps := by
  refine ⟨fun v hv => ?_, fun s hs => ?_⟩
  · rw [(C83_covariance env sort m hm cm hcm hn x y).1] at hv
    exact covSqrC_low env sort _ _ x y false hn v hv
  · rw [(C83_statistics env sort m hm cm hcm hn x y).1] at hs
    exact statsSqrC_low env sort _ _ x y false hn s hs

/-- The working array of the AVL method has at most four elements per observation. -/
theorem C83_memory {n : ℕ} (hn : 3 < n) (argsort : (Fin n → ℝ) → Equiv.Perm (Fin n)) (x y : Fin n → ℝ) :
    2 ^ ((getImplArgs argsort x y).lMax + 1) ≤ 4 * n :=
  buffer_le (by omega)

/-- A sort that takes `n ⌈log₂ n⌉` steps. -/
private def exSort (n : ℕ) : ℕ := n * Nat.clog 2 n

/-- Covariance of 1024 observations with the default arguments: between `14 · 10240` and `115 · 10240 + 184 · 1024`
steps if sorting takes `10240`. -/
example (x y : Fin 1024 → ℝ) :
    2 * 10240 + 12 * 10240 ≤ (covSqrC stdEnv exSort false true x y false).steps ∧
      (covSqrC stdEnv exSort false true x y false).steps ≤ 3 * 10240 + 112 * 10240 + 184 * 1024 := by
  have hl : Nat.clog 2 1024 = 10 := by
    have : (1024 : ℕ) = 2 ^ 10 := by norm_num
    rw [this, Nat.clog_pow _ _ (by norm_num)]
  have hs : exSort 1024 = 10240 := by rw [exSort, hl]
  have h1 := (C83_covariance stdEnv exSort .auto (by simp) .auto (by simp) (show 3 < 1024 by norm_num) x y).2.2 false
  obtain ⟨v, hv⟩ : ∃ v, (distanceCovarianceSqr stdEnv (npVec x) (npVec y)
      { method := .enum .auto, compileMode := .auto }).out = .ok v :=
    ⟨_, distanceCovarianceSqr_ok (supported_vec (by norm_num) x y .auto .auto (Or.inl rfl)) (by norm_num)⟩
  have h2 := (C83_exact_order stdEnv exSort .auto (by simp) .auto (by simp) (show 3 < 1024 by norm_num) x y).1 v hv
  rw [hs, hl] at h1 h2
  exact ⟨h2, h1⟩

end Dcor.Props

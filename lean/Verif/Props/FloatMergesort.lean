/-
C67, C68, C69 and C72 fail for the mergesort method in `float64`, as they do for the AVL method.
-/
import Verif.Props.ErrorBound

namespace Dcor.Props

open Dcor

/-- `float64` arithmetic with correctly rounded square roots, and sums and scalar products from left to right. -/
abbrev seq64 : Arith ℚ := binary64 sqrt64 seqSum64 seqDot64

/-- Test the statistics returned by a computation. -/
def statsSatisfy (r : Except PyErr (Arith.StatsSqr ℚ)) (p : Arith.StatsSqr ℚ → Bool) : Bool :=
  match r with
  | .ok s => p s
  | .error _ => false

theorem statsSatisfy_iff {r : Except PyErr (Arith.StatsSqr ℚ)} {p : Arith.StatsSqr ℚ → Bool}
    (h : statsSatisfy r p = true) : ∃ s, r = .ok s ∧ p s = true := by
  cases r with
  | error e => simp [statsSatisfy] at h
  | ok s => exact ⟨s, rfl, h⟩

/-- On sorted samples the result depends only on `argsort` keeping them. -/
theorem mergesortStats_sorted {n : ℕ} (A : Arith ℚ) {argsort : (Fin n → ℚ) → Equiv.Perm (Fin n)}
    (hsort : KeepsSorted argsort) (bc : Bool) (ge : ℚ → ℚ → Bool) {x y : Fin n → ℚ} (hx : Monotone x)
    (hy : Monotone y) : A.mergesortStats bc ge argsort x y = A.mergesortStats bc ge (fun _ => 1) x y := by
  have hy' : argsort (fun i => y ((1 : Equiv.Perm (Fin n)) i)) = 1 := hsort _ hy
  unfold Arith.mergesortStats Arith.mergesortTerms
  dsimp only
  rw [hsort x hx, hy']

/-- C67 fails for the mergesort method: the squared distance covariance of `[0.1, 0.1, 0.1, 0.1]` and `[1, 2, 3, 5]` is
negative, so is the squared distance variance of the constant sample, and their squared distance correlation is less
than -9, instead of zero. -/
theorem C67_constant_mergesort_fails {argsort : (Fin 4 → ℚ) → Equiv.Perm (Fin 4)} (hsort : KeepsSorted argsort) :
    ∃ s, seq64.mergesortStats false (fun a b => decide (b ≤ a)) argsort (fun _ => round64 (1 / 10)) ![1, 2, 3, 5]
        = .ok s ∧ s.cov < 0 ∧ s.varX < 0 ∧ s.corr < -9 := by
  rw [mergesortStats_sorted _ hsort false _ (fun _ _ _ => le_rfl) (monotone4 (by decide +kernel))]
  obtain ⟨s, e, h⟩ := statsSatisfy_iff (r := seq64.mergesortStats false (fun a b => decide (b ≤ a)) (fun _ => 1)
    (fun _ => round64 (1 / 10)) ![1, 2, 3, 5]) (p := fun s => decide (s.cov < 0 ∧ s.varX < 0 ∧ s.corr < -9))
    (by decide +kernel)
  exact ⟨s, e, by simpa using h⟩

/-- C68 fails for the mergesort method: the squared distance covariance of `[0, 1, 2, 4]` and itself is 89 / 64 and the
squared correlation is 1; after adding `2 ** 30` they are -191 / 64 and less than -2. -/
theorem C68_translation_mergesort_fails {argsort : (Fin 4 → ℚ) → Equiv.Perm (Fin 4)} (hsort : KeepsSorted argsort) :
    ∃ s s', seq64.mergesortStats false (fun a b => decide (b ≤ a)) argsort ![0, 1, 2, 4] ![0, 1, 2, 4] = .ok s ∧
      seq64.mergesortStats false (fun a b => decide (b ≤ a)) argsort
        (fun i => (![0, 1, 2, 4] : Fin 4 → ℚ) i + 2 ^ 30) (fun i => (![0, 1, 2, 4] : Fin 4 → ℚ) i + 2 ^ 30) = .ok s' ∧
      s.cov = 89 / 64 ∧ s.corr = 1 ∧ s'.cov = -191 / 64 ∧ s'.varX = 89 / 64 ∧ s'.corr < -2 := by
  have m1 : Monotone (![0, 1, 2, 4] : Fin 4 → ℚ) := monotone4 (by decide +kernel)
  have m2 : Monotone (fun i => (![0, 1, 2, 4] : Fin 4 → ℚ) i + 2 ^ 30) := fun i j hij => by
    have := m1 hij
    simp only
    linarith
  rw [mergesortStats_sorted _ hsort false _ m1 m1, mergesortStats_sorted _ hsort false _ m2 m2]
  obtain ⟨s, e, h⟩ := statsSatisfy_iff (r := seq64.mergesortStats false (fun a b => decide (b ≤ a)) (fun _ => 1)
    ![0, 1, 2, 4] ![0, 1, 2, 4]) (p := fun s => decide (s.cov = 89 / 64 ∧ s.corr = 1)) (by decide +kernel)
  obtain ⟨s', e', h'⟩ := statsSatisfy_iff (r := seq64.mergesortStats false (fun a b => decide (b ≤ a)) (fun _ => 1)
    (fun i => (![0, 1, 2, 4] : Fin 4 → ℚ) i + 2 ^ 30) (fun i => (![0, 1, 2, 4] : Fin 4 → ℚ) i + 2 ^ 30))
    (p := fun s => decide (s.cov = -191 / 64 ∧ s.varX = 89 / 64 ∧ s.corr < -2)) (by decide +kernel)
  rw [decide_eq_true_eq] at h h'
  exact ⟨s, s', e, e', h.1, h.2, h'⟩

/-- C69 fails for the mergesort method: a sample with positive variance has a squared correlation below -2 with
itself. -/
theorem C69_self_correlation_mergesort_fails {argsort : (Fin 4 → ℚ) → Equiv.Perm (Fin 4)}
    (hsort : KeepsSorted argsort) :
    ∃ s, seq64.mergesortStats false (fun a b => decide (b ≤ a)) argsort
        (fun i => (![0, 1, 2, 4] : Fin 4 → ℚ) i + 2 ^ 30) (fun i => (![0, 1, 2, 4] : Fin 4 → ℚ) i + 2 ^ 30) = .ok s ∧
      0 < s.varX ∧ s.corr < -2 := by
  obtain ⟨_, s, _, e, _, _, _, h1, h2⟩ := C68_translation_mergesort_fails hsort
  exact ⟨s, e, by rw [h1]; norm_num, h2⟩

/-- C72 fails for the mergesort method: distances are at most 4, and the squared covariance is wrong by more than 4. -/
theorem C72_mergesort_inaccurate {argsort : (Fin 4 → ℚ) → Equiv.Perm (Fin 4)} (hsort : KeepsSorted argsort) :
    ∃ (x : Fin 4 → ℚ) (s : Arith.StatsSqr ℚ), (∀ i, round64 (x i) = x i) ∧
      (∀ i j, realDist (fun i (_ : Fin 1) => x i) i j ≤ 4) ∧
      seq64.mergesortStats false (fun a b => decide (b ≤ a)) argsort x x = .ok s ∧
      4 < |(s.cov : ℝ) - Spec.dcovSqr (realDist fun i (_ : Fin 1) => x i) (realDist fun i (_ : Fin 1) => x i)| := by
  obtain ⟨_, s, _, e, _, _, hs, h1, h2⟩ := C68_translation_mergesort_fails hsort
  refine ⟨_, s, by decide +kernel, fun i j => ?_, e, ?_⟩
  · unfold realDist
    rw [distMat_cast]
    have : ∀ i j : Fin 4, |((![0, 1, 2, 4] : Fin 4 → ℚ) i + 2 ^ 30) - ((![0, 1, 2, 4] : Fin 4 → ℚ) j + 2 ^ 30)| ≤ 4 := by
      decide +kernel
    have := (Rat.cast_le (K := ℝ)).2 (this i j)
    exact this.trans (by norm_num)
  · unfold realDist
    rw [← exactFrom_biased (by norm_num), hs]
    have : exactFrom 4 false
        (absTerms (fun i => (![0, 1, 2, 4] : Fin 4 → ℚ) i + 2 ^ 30) (fun i => (![0, 1, 2, 4] : Fin 4 → ℚ) i + 2 ^ 30)).meanProd
        (absTerms (fun i => (![0, 1, 2, 4] : Fin 4 → ℚ) i + 2 ^ 30) (fun i => (![0, 1, 2, 4] : Fin 4 → ℚ) i + 2 ^ 30)).aAxis
        (absTerms (fun i => (![0, 1, 2, 4] : Fin 4 → ℚ) i + 2 ^ 30) (fun i => (![0, 1, 2, 4] : Fin 4 → ℚ) i + 2 ^ 30)).aTotal
        (absTerms (fun i => (![0, 1, 2, 4] : Fin 4 → ℚ) i + 2 ^ 30) (fun i => (![0, 1, 2, 4] : Fin 4 → ℚ) i + 2 ^ 30)).bAxis
        (absTerms (fun i => (![0, 1, 2, 4] : Fin 4 → ℚ) i + 2 ^ 30) (fun i => (![0, 1, 2, 4] : Fin 4 → ℚ) i + 2 ^ 30)).bTotal
        = 89 / 64 := by
      decide +kernel
    rw [this]
    push_cast
    rw [lt_abs]
    right
    norm_num

/-- The arithmetic is one of those allowed by `IsFloat64`, and there are sorting functions that keep sorted arrays. -/
example : IsFloat64 sqrt64 seqSum64 seqDot64 ∧ ∃ argsort : (Fin 4 → ℚ) → Equiv.Perm (Fin 4), KeepsSorted argsort :=
  ⟨float64_seq.1, Tuple.sort, fun _ hv => Tuple.sort_eq_refl_iff_monotone.2 hv⟩

end Dcor.Props

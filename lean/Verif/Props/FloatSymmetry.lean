/-
C70 for the fast methods: exchanging the samples in `float64`.
-/
import Verif.Props.Float
import Verif.Props.ErrorBound
import Verif.Proofs.SpecAlg

namespace Dcor.Props

variable {n : ℕ} {sqrt : ℚ → ℚ} {sum : List ℚ → ℚ} {dot : List (ℚ × ℚ) → ℚ}

/-- The only way to sort a vector that is sorted and has no ties. -/
theorem argsort_refl {v : Fin n → ℚ} (hv : StrictMono v) {σ : Equiv.Perm (Fin n)} (h : Monotone fun i => v (σ i)) :
    σ = Equiv.refl _ := by
  have hm : Monotone σ := fun i j hij => hv.le_iff_le.1 (h hij)
  have hs : StrictMono σ := hm.strictMono_of_injective σ.injective
  ext i
  exact congrArg _ (congrFun (StrictMono.range_inj hs strictMono_id |>.1 (by rw [Set.range_id, σ.range_eq_univ])) i)

/-- The sample `[0, 0.1, 0.2, 0.3]`. -/
def swapX : Fin 4 → ℚ := fun i => round64 ((![0, 1 / 10, 2 / 10, 3 / 10] : Fin 4 → ℚ) i)

/-- The sample `[0.1, 0.3, 0.4, 0.6]`. -/
def swapY : Fin 4 → ℚ := fun i => round64 ((![1 / 10, 3 / 10, 4 / 10, 6 / 10] : Fin 4 → ℚ) i)

theorem swapX_sorted {argsort : (Fin 4 → ℚ) → Equiv.Perm (Fin 4)}
    (hsort : ∀ v : Fin 4 → ℚ, Monotone fun i => v (argsort v i)) : argsort swapX = Equiv.refl _ :=
  argsort_refl (by have : ∀ i j : Fin 4, i < j → swapX i < swapX j := by decide +kernel
                   exact fun i j => this i j) (hsort _)

theorem swapY_sorted {argsort : (Fin 4 → ℚ) → Equiv.Perm (Fin 4)}
    (hsort : ∀ v : Fin 4 → ℚ, Monotone fun i => v (argsort v i)) : argsort swapY = Equiv.refl _ :=
  argsort_refl (by have : ∀ i j : Fin 4, i < j → swapY i < swapY j := by decide +kernel
                   exact fun i j => this i j) (hsort _)

/-- C70 fails for the AVL method, also if the number of observations is a power of two: the squared distance covariances
of `[0, 0.1, 0.2, 0.3]` and `[0.1, 0.3, 0.4, 0.6]` and of the same samples exchanged differ. -/
theorem C70_avl_fails {argsort : (Fin 4 → ℚ) → Equiv.Perm (Fin 4)}
    (hsort : ∀ v : Fin 4 → ℚ, Monotone fun i => v (argsort v i)) (compiled : Bool) :
    ∃ s s', (binary64 sqrt64 seqSum64 seqDot64).avlStats false compiled argsort swapX swapY = .ok s ∧
      (binary64 sqrt64 seqSum64 seqDot64).avlStats false compiled argsort swapY swapX = .ok s' ∧ s.cov ≠ s'.cov := by
  have hx := swapX_sorted hsort
  have hy := swapY_sorted hsort
  have e1 : (binary64 sqrt64 seqSum64 seqDot64).avlStats false compiled argsort swapX swapY
      = (binary64 sqrt64 seqSum64 seqDot64).avlStats false compiled (fun _ => Equiv.refl _) swapX swapY := by
    unfold Arith.avlStats Arith.avlTerms Arith.avlTermsWith
    simp only [hx, hy, Equiv.refl_apply]
  have e2 : (binary64 sqrt64 seqSum64 seqDot64).avlStats false compiled argsort swapY swapX
      = (binary64 sqrt64 seqSum64 seqDot64).avlStats false compiled (fun _ => Equiv.refl _) swapY swapX := by
    unfold Arith.avlStats Arith.avlTerms Arith.avlTermsWith
    simp only [hx, hy, Equiv.refl_apply]
  have key : ∃ a b, ((binary64 sqrt64 seqSum64 seqDot64).avlStats false compiled (fun _ => Equiv.refl _) swapX swapY).map
        (fun s => s.cov) = .ok a ∧
      ((binary64 sqrt64 seqSum64 seqDot64).avlStats false compiled (fun _ => Equiv.refl _) swapY swapX).map
        (fun s => s.cov) = .ok b ∧ a ≠ b := by
    refine ⟨225179981368525 / 18014398509481984, 1801439850948199 / 144115188075855872, ?_, ?_, ?_⟩ <;> cases compiled <;> decide +kernel
  obtain ⟨a, b, ha, hb, hab⟩ := key
  rw [e1, e2]
  cases h1 : (binary64 sqrt64 seqSum64 seqDot64).avlStats false compiled (fun _ => Equiv.refl _) swapX swapY with
  | error e => rw [h1] at ha; cases ha
  | ok s =>
    cases h2 : (binary64 sqrt64 seqSum64 seqDot64).avlStats false compiled (fun _ => Equiv.refl _) swapY swapX with
    | error e => rw [h2] at hb; cases hb
    | ok s' =>
      rw [h1] at ha
      rw [h2] at hb
      refine ⟨s, s', rfl, rfl, ?_⟩
      rw [show s.cov = a from Except.ok.inj ha, show s'.cov = b from Except.ok.inj hb]
      exact hab

/-- C70 fails for the mergesort method, with the same samples. -/
theorem C70_mergesort_fails {argsort : (Fin 4 → ℚ) → Equiv.Perm (Fin 4)}
    (hsort : ∀ v : Fin 4 → ℚ, Monotone fun i => v (argsort v i)) :
    ∃ s s', (binary64 sqrt64 seqSum64 seqDot64).mergesortStats false (fun a b => decide (b ≤ a)) argsort swapX swapY
        = .ok s ∧
      (binary64 sqrt64 seqSum64 seqDot64).mergesortStats false (fun a b => decide (b ≤ a)) argsort swapY swapX
        = .ok s' ∧ s.cov ≠ s'.cov := by
  have hx := swapX_sorted hsort
  have hy := swapY_sorted hsort
  have e1 : (binary64 sqrt64 seqSum64 seqDot64).mergesortStats false (fun a b => decide (b ≤ a)) argsort swapX swapY
      = (binary64 sqrt64 seqSum64 seqDot64).mergesortStats false (fun a b => decide (b ≤ a)) (fun _ => Equiv.refl _)
        swapX swapY := by
    unfold Arith.mergesortStats Arith.mergesortTerms
    simp only [hx, hy, Equiv.refl_apply]
  have e2 : (binary64 sqrt64 seqSum64 seqDot64).mergesortStats false (fun a b => decide (b ≤ a)) argsort swapY swapX
      = (binary64 sqrt64 seqSum64 seqDot64).mergesortStats false (fun a b => decide (b ≤ a)) (fun _ => Equiv.refl _)
        swapY swapX := by
    unfold Arith.mergesortStats Arith.mergesortTerms
    simp only [hx, hy, Equiv.refl_apply]
  have key : ∃ a b, ((binary64 sqrt64 seqSum64 seqDot64).mergesortStats false (fun a b => decide (b ≤ a))
        (fun _ => Equiv.refl _) swapX swapY).map (fun s => s.cov) = .ok a ∧
      ((binary64 sqrt64 seqSum64 seqDot64).mergesortStats false (fun a b => decide (b ≤ a))
        (fun _ => Equiv.refl _) swapY swapX).map (fun s => s.cov) = .ok b ∧ a ≠ b := by
    refine ⟨3602879701896399 / 288230376151711744, 3602879701896395 / 288230376151711744, ?_, ?_, ?_⟩ <;> decide +kernel
  obtain ⟨a, b, ha, hb, hab⟩ := key
  rw [e1, e2]
  cases h1 : (binary64 sqrt64 seqSum64 seqDot64).mergesortStats false (fun a b => decide (b ≤ a)) (fun _ => Equiv.refl _)
      swapX swapY with
  | error e => rw [h1] at ha; cases ha
  | ok s =>
    cases h2 : (binary64 sqrt64 seqSum64 seqDot64).mergesortStats false (fun a b => decide (b ≤ a))
        (fun _ => Equiv.refl _) swapY swapX with
    | error e => rw [h2] at hb; cases hb
    | ok s' =>
      rw [h1] at ha
      rw [h2] at hb
      refine ⟨s, s', rfl, rfl, ?_⟩
      rw [show s.cov = a from Except.ok.inj ha, show s'.cov = b from Except.ok.inj hb]
      exact hab

theorem swap_close {a b c d : ℝ} (ha : |a - c| ≤ d) (hb : |b - c| ≤ d) : |a - b| ≤ 2 * d := by
  have := abs_sub_le a c b
  rw [abs_sub_comm c b] at this
  linarith

/-- C70 for the AVL method: exchanging the samples changes the covariance by no more than twice the error bound of C73.
What is missing is equality, which is false (`C70_avl_fails`). -/
theorem C70_avl_partial (h : IsFloat64 sqrt sum dot) (hn : 3 < n) (compiled : Bool)
    {argsort : (Fin n → ℚ) → Equiv.Perm (Fin n)} (hsort : ∀ v : Fin n → ℚ, Monotone fun i => v (argsort v i))
    {x y : Fin n → ℚ} {X Y : ℚ} (fx : ∀ i, round64 (x i) = x i) (fy : ∀ i, round64 (y i) = y i)
    (hx : ∀ i, |x i| ≤ X) (hy : ∀ i, |y i| ≤ Y) (hK : 4 * n + 22 ≤ 2 ^ 53) :
    ∃ s s', (binary64 sqrt sum dot).avlStats false compiled argsort x y = .ok s ∧
      (binary64 sqrt sum dot).avlStats false compiled argsort y x = .ok s' ∧
      |(s.cov : ℝ) - s'.cov| ≤ 2 * (328 * (4 * n + 22) * (X * Y) / 2 ^ 53) := by
  obtain ⟨s, e, h1, -⟩ := C73_avl_accuracy h hn compiled hsort fx fy hx hy hK
  obtain ⟨s', e', h2, -⟩ := C73_avl_accuracy h hn compiled hsort fy fx hy hx hK
  rw [Spec.dcovSqr_comm, mul_comm (Y : ℝ)] at h2
  exact ⟨s, s', e, e', swap_close h1 h2⟩

/-- C70 for the mergesort method: exchanging the samples changes the covariance by no more than twice the error bound of
C73. What is missing is equality, which is false (`C70_mergesort_fails`). -/
theorem C70_mergesort_partial (h : IsFloat64 sqrt sum dot) (hn : 0 < n)
    {argsort : (Fin n → ℚ) → Equiv.Perm (Fin n)} (hsort : ∀ v : Fin n → ℚ, Monotone fun i => v (argsort v i))
    {x y : Fin n → ℚ} {X Y : ℚ} (hx : ∀ i, |x i| ≤ X) (hy : ∀ i, |y i| ≤ Y) (hK : 4 * n + 22 ≤ 2 ^ 53) :
    ∃ s s', (binary64 sqrt sum dot).mergesortStats false (fun a b => decide (b ≤ a)) argsort x y = .ok s ∧
      (binary64 sqrt sum dot).mergesortStats false (fun a b => decide (b ≤ a)) argsort y x = .ok s' ∧
      |(s.cov : ℝ) - s'.cov| ≤ 2 * ((64 * Nat.clog 2 n + 232) * (4 * n + 22) * (X * Y) / 2 ^ 53) := by
  obtain ⟨s, e, h1, -⟩ := C73_mergesort_accuracy h hn hsort hx hy hK
  obtain ⟨s', e', h2, -⟩ := C73_mergesort_accuracy h hn hsort hy hx hK
  rw [Spec.dcovSqr_comm, mul_comm (Y : ℝ)] at h2
  exact ⟨s, s', e, e', swap_close h1 h2⟩

/-- The samples of the counterexample meet the hypotheses. -/
example {argsort : (Fin 4 → ℚ) → Equiv.Perm (Fin 4)} (hsort : ∀ v : Fin 4 → ℚ, Monotone fun i => v (argsort v i)) :
    ∃ s s', (binary64 sqrt64 seqSum64 seqDot64).avlStats false true argsort swapX swapY = .ok s ∧
      (binary64 sqrt64 seqSum64 seqDot64).avlStats false true argsort swapY swapX = .ok s' ∧ s.cov ≠ s'.cov ∧
      |(s.cov : ℝ) - s'.cov| ≤ 1 / 10 ^ 10 := by
  obtain ⟨s, s', e1, e2, h⟩ := C70_avl_fails hsort true
  obtain ⟨t, t', f1, f2, h'⟩ := C70_avl_partial (x := swapX) (y := swapY) (X := 1) (Y := 1) float64_seq.1 (by norm_num)
    true hsort (by decide +kernel) (by decide +kernel) (by decide +kernel) (by decide +kernel) (by norm_num)
  obtain rfl : s = t := Except.ok.inj (e1.symm.trans f1)
  obtain rfl : s' = t' := Except.ok.inj (e2.symm.trans f2)
  exact ⟨s, s', e1, e2, h, h'.trans (by norm_num)⟩

end Dcor.Props

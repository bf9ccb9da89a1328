/-
Evaluation of the AVL method in `float64` arithmetic on concrete samples, whatever the square root and the order
of the operations in scalar products.
-/
import Verif.Proofs.Sqrt64

namespace Dcor

theorem isInt_of_den {q : ℚ} (h : q.den = 1) : IsInt q := ⟨q.num, ((Rat.den_eq_one_iff q).1 h).symm⟩

/-- A scalar product of numbers that are integers after scaling by powers of two is exact in any order. -/
theorem DotsTo.exact_scaled {l : List (ℚ × ℚ)} {r : ℚ} (i j : ℤ) (h : DotsTo l r)
    (hl : ∀ p ∈ l, (2 ^ i * p.1 * (2 ^ j * p.2)).den = 1)
    (hs : (l.map fun p => |2 ^ i * p.1 * (2 ^ j * p.2)|).sum ≤ 2 ^ 53) : r = (l.map fun p => p.1 * p.2).sum := by
  have h1 := (h.scale i j).exact (by
    intro p hp
    obtain ⟨p', hp', rfl⟩ := List.mem_map.1 hp
    exact isInt_of_den (hl p' hp')) (by rw [List.map_map]; exact hs)
  rw [List.map_map] at h1
  have h2 : (l.map ((fun p : ℚ × ℚ => p.1 * p.2) ∘ fun p => (2 ^ i * p.1, 2 ^ j * p.2))).sum
      = 2 ^ (i + j) * (l.map fun p => p.1 * p.2).sum := by
    rw [← List.sum_map_mul_left]
    congr 1
    apply List.map_congr_left
    intro p _
    simp only [Function.comp]
    rw [zpow_add₀ (by norm_num)]
    ring
  rw [h2] at h1
  exact mul_left_cancel₀ (by positivity) h1

/-- Test that a computation returned given terms. -/
def termsAre {n : ℕ} (r : Except PyErr (CoreTerms ℚ n)) (t : CoreTerms ℚ n) : Bool :=
  match r with
  | .ok s => decide (s.meanProd = t.meanProd ∧ (∀ i, s.aAxis i = t.aAxis i) ∧ s.aTotal = t.aTotal ∧
      (∀ i, s.bAxis i = t.bAxis i) ∧ s.bTotal = t.bTotal)
  | .error _ => false

theorem termsAre_iff {n : ℕ} {r : Except PyErr (CoreTerms ℚ n)} {t : CoreTerms ℚ n} (h : termsAre r t = true) :
    r = .ok t := by
  cases r with
  | error e => simp [termsAre] at h
  | ok s =>
    unfold termsAre at h
    rw [decide_eq_true_eq] at h
    obtain ⟨h1, h2, h3, h4, h5⟩ := h
    cases s
    cases t
    simp only at h1 h2 h3 h4 h5
    subst h1 h3 h5
    rw [funext h2, funext h4]

/-- The terms of the AVL method do not depend on the square root and the scalar product, and only on the values of
`argsort` at the samples. -/
theorem avlTermsWith_binary64 {n L : ℕ} {sqrt sqrt' : ℚ → ℚ} {sum : List ℚ → ℚ} {dot dot' : List (ℚ × ℚ) → ℚ}
    (compiled : Bool) {argsort argsort' : (Fin n → ℚ) → Equiv.Perm (Fin n)} {x y : Fin n → ℚ}
    (ex : argsort x = argsort' x) (ey : argsort y = argsort' y)
    (exy : argsort (fun i => y (argsort x i)) = argsort' (fun i => y (argsort' x i))) {t : CoreTerms ℚ n}
    (ht : (binary64 sqrt' sum dot').avlTermsWith L compiled argsort' x y = .ok t) :
    (binary64 sqrt sum dot).avlTermsWith L compiled argsort x y = .ok t := by
  have hrel : (binary64 sqrt sum dot).Rel (binary64 sqrt' sum dot') (fun a b => a = b) := by
    refine ⟨fun _ => rfl, ?_, ?_, ?_, ?_⟩
    · rintro a b _ _ rfl rfl; rfl
    · rintro a b _ _ rfl rfl; rfl
    · rintro a b _ _ rfl rfl; rfl
    · intro l l' hl
      rw [List.forall₂_eq_eq_eq] at hl
      subst hl
      rfl
  have := avlTermsWith_rel hrel L compiled (argsort := argsort) (argsort' := argsort') (x := x) (y := y) (x' := x)
    (y' := y) (fun _ => rfl) (fun _ => rfl) ex ey exy
  rw [ht] at this
  obtain ⟨s, e, hs⟩ := this.of_ok
  rw [e]
  congr 1
  cases s
  cases t
  congr 1
  · exact hs.meanProd
  · exact funext hs.aAxis
  · exact hs.aTotal
  · exact funext hs.bAxis
  · exact hs.bTotal

/-- A sorting function that leaves sorted arrays as they are, for example a stable one. -/
def KeepsSorted {n : ℕ} (argsort : (Fin n → ℚ) → Equiv.Perm (Fin n)) : Prop :=
  ∀ v : Fin n → ℚ, Monotone v → argsort v = 1

theorem avlStats_sorted {sqrt : ℚ → ℚ} {dot : List (ℚ × ℚ) → ℚ} {argsort : (Fin 4 → ℚ) → Equiv.Perm (Fin 4)}
    (hsort : KeepsSorted argsort) (bc compiled : Bool) {x y : Fin 4 → ℚ} (hx : Monotone x) (hy : Monotone y)
    {t : CoreTerms ℚ 4}
    (ht : termsAre ((binary64 id seqSum64 (fun _ => 0)).avlTermsWith 2 compiled (fun _ => 1) x y) t = true) :
    (binary64 sqrt seqSum64 dot).avlStats bc compiled argsort x y
      = .ok ((binary64 sqrt seqSum64 dot).statsFromTerms bc
          { core := t, aMeanProd := (binary64 sqrt seqSum64 dot).varTerm x,
            bMeanProd := (binary64 sqrt seqSum64 dot).varTerm y }) := by
  have h := avlTermsWith_binary64 (sqrt := sqrt) (dot := dot) compiled (argsort := argsort)
    (argsort' := fun _ => 1) (x := x) (y := y)
    (hsort x hx) (hsort y hy) (by
      rw [hsort x hx]
      exact hsort y hy) (termsAre_iff ht)
  unfold Arith.avlStats Arith.avlTerms
  rw [show Nat.clog 2 4 = 2 from Nat.clog_pow 2 2 (by norm_num), h]
  rfl

theorem monotone4 {v : Fin 4 → ℚ} (h : v 0 ≤ v 1 ∧ v 1 ≤ v 2 ∧ v 2 ≤ v 3) : Monotone v := by
  rw [Fin.monotone_iff_le_succ]
  intro i
  fin_cases i
  · exact h.1
  · exact h.2.1
  · exact h.2.2

/-- `_dcov_from_terms` for four samples, given the scalar product. -/
def fromTerms4 (mp v aTotal bTotal : ℚ) : ℚ :=
  round64 (round64 (round64 (round64 (mp / 4) / 4) - round64 (2 * round64 (v / 16)))
    + round64 (round64 (round64 (aTotal / 4) * bTotal) / 64))

theorem fromTerms4_eq {sqrt : ℚ → ℚ} {sum : List ℚ → ℚ} {dot : List (ℚ × ℚ) → ℚ} {mp v aTotal bTotal : ℚ}
    {a b : Fin 4 → ℚ} (h : (binary64 sqrt sum dot).vdot (fun i => (binary64 sqrt sum dot).idiv (a i) (4 : ℕ)) b = v) :
    (binary64 sqrt sum dot).fromTerms false mp a aTotal b bTotal = fromTerms4 mp v aTotal bTotal := by
  unfold Arith.fromTerms
  dsimp only
  rw [h]
  have e4 : round64 (((4 : ℕ) : ℤ) : ℚ) = 4 := by decide +kernel
  have e16 : round64 (((((4 : ℕ) : ℤ) ^ 2 : ℤ)) : ℚ) = 16 := by decide +kernel
  have e64 : round64 (((((4 : ℕ) : ℤ) ^ 3 : ℤ)) : ℚ) = 64 := by decide +kernel
  have e2 : round64 ((2 : ℤ) : ℚ) = 2 := by decide +kernel
  show round64 (round64 (round64 (round64 (mp / round64 (((4 : ℕ) : ℤ) : ℚ)) / round64 (((4 : ℕ) : ℤ) : ℚ))
      - round64 (round64 ((2 : ℤ) : ℚ) * round64 (v / round64 (((((4 : ℕ) : ℤ) ^ 2 : ℤ)) : ℚ))))
    + round64 (round64 (round64 (aTotal / round64 (((4 : ℕ) : ℤ) : ℚ)) * bTotal)
      / round64 (((((4 : ℕ) : ℤ) ^ 3 : ℤ)) : ℚ))) = _
  rw [e4, e16, e64, e2]
  rfl

theorem SqrtTo.sq_le {q r : ℚ} (h : SqrtTo q r) (hq : 0 ≤ q) : r ^ 2 ≤ q * (1 + 1 / 2 ^ 51) := by
  have herr := (abs_le.1 h.err).2
  have hqr : (0 : ℝ) ≤ q := by exact_mod_cast hq
  have hs := Real.sq_sqrt hqr
  have hs0 := Real.sqrt_nonneg (q : ℝ)
  have hr : (0 : ℝ) ≤ r := by exact_mod_cast h.nonneg
  have h1 : (r : ℝ) ≤ Real.sqrt q * (1 + 1 / 2 ^ 53) := by linarith
  have h2 : (r : ℝ) ^ 2 ≤ (Real.sqrt q * (1 + 1 / 2 ^ 53)) ^ 2 := pow_le_pow_left₀ hr h1 2
  rw [mul_pow, hs] at h2
  have h3 : ((1 : ℝ) + 1 / 2 ^ 53) ^ 2 ≤ 1 + 1 / 2 ^ 51 := by norm_num
  have h4 : (r : ℝ) ^ 2 ≤ q * (1 + 1 / 2 ^ 51) := h2.trans (mul_le_mul_of_nonneg_left h3 hqr)
  rw [← Rat.cast_le (K := ℝ)]
  push_cast
  exact h4

/-- A lower bound for a rounded quotient by a square root. -/
theorem SqrtTo.div_ge {q r a b : ℚ} (h : SqrtTo q r) (hq : 0 < q) (ha : 0 < a) (hb : 0 < b)
    (hab : b ^ 2 * (q * (1 + 1 / 2 ^ 51)) ≤ a ^ 2) : b * (1 - 1 / 2 ^ 53) ≤ round64 (a / r) := by
  have hr : 0 < r := lt_of_le_of_ne h.nonneg fun e => hq.ne' (h.eq_zero.1 e.symm)
  have h1 : (b * r) ^ 2 ≤ a ^ 2 := by
    rw [mul_pow]
    exact (mul_le_mul_of_nonneg_left (h.sq_le hq.le) (by positivity)).trans hab
  have h2 : b * r ≤ a := le_of_sq_le_sq h1 ha.le
  have h3 : b ≤ a / r := by rwa [le_div_iff₀ hr]
  have h4 := (abs_le.1 (round64_err (a / r))).1
  rw [abs_of_pos (by positivity)] at h4
  have h5 : b * (1 - 1 / 2 ^ 53) ≤ a / r * (1 - 1 / 2 ^ 53) := mul_le_mul_of_nonneg_right h3 (by norm_num)
  linarith

end Dcor

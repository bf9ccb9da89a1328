/-
C65–C66: memory safety and exactness on integers of the three methods in `float64` arithmetic.
-/
import Verif.Proofs.Safety
import Verif.Proofs.Binary64

namespace Dcor.Props

open Dcor

/-! ### C65 -/

section C65

variable {R : Type} {n : ℕ}

/-- C65: the AVL method never accesses an array out of its bounds, whatever the array contains (NaN, infinities,
numbers that overflow), however the arithmetic rounds and however the elements are sorted, in compiled and in
interpreted mode: it returns a result. -/
theorem C65_avl_stays_in_bounds (A : Arith R) (biasCorrected compiled : Bool)
    (argsort : (Fin n → R) → Equiv.Perm (Fin n)) (x y : Fin n → R) (hn : 3 < n) :
    ∃ s, A.avlStats biasCorrected compiled argsort x y = .ok s := by
  obtain ⟨D, e⟩ := avlTermsWith_safe A (Nat.clog 2 n) (Nat.le_pow_clog (by norm_num) n) compiled argsort x y hn
  unfold Arith.avlStats Arith.avlTerms
  rw [e]
  exact ⟨_, rfl⟩

/-- C65: the mergesort method never accesses an array out of its bounds, even if `>=` is not a total order
because there are NaN. -/
theorem C65_mergesort_stays_in_bounds (A : Arith R) (biasCorrected : Bool) (ge : R → R → Bool)
    (argsort : (Fin n → R) → Equiv.Perm (Fin n)) (x y : Fin n → R) (hn : 0 < n) :
    ∃ s, A.mergesortStats biasCorrected ge argsort x y = .ok s := by
  obtain ⟨t, e⟩ := mergesortTerms_safe A ge argsort x y hn
  unfold Arith.mergesortStats
  rw [e]
  exact ⟨_, rfl⟩

/-- C65: the permutation computed by the mergesort loop has entries in range, for any comparison. -/
theorem C65_merge_indices_in_range (A : Arith R) {V : ℕ} {Y : Type} (ge : Y → Y → Bool) (y : Fin n → Y)
    (w : Fin n → Fin V → R) : ∃ r, A.computeWeightSums ge y w = .ok r ∧ ∀ t, r.1 t < n :=
  computeWeightSums_safe A ge y w

/-- A comparison that is false for NaN (`none`), and an arithmetic in which NaN absorbs. -/
example : ∃ s, (⟨fun k => some (k : ℚ), fun a b => (a.bind fun a => b.map (a + ·)),
      fun a b => (a.bind fun a => b.map (a - ·)), fun a b => (a.bind fun a => b.map (a * ·)), fun _ _ => none,
      fun _ => none, fun _ => none, id, id, fun _ _ => false, fun _ _ => false⟩ : Arith (Option ℚ)).mergesortStats false
    (fun a b => match a, b with
      | some a, some b => decide (b ≤ a)
      | _, _ => false) (fun _ => Equiv.refl _) ![some 1, none, some 3, none, some 2] ![none, some 2, some 1, some 5, some 7]
    = .ok s :=
  C65_mergesort_stays_in_bounds _ _ _ _ _ _ (by norm_num)

end C65

/-! ### C66 -/

section C66

variable {sqrt : ℚ → ℚ} {sum : List ℚ → ℚ} {dot : List (ℚ × ℚ) → ℚ} {n : ℕ}

/-- The samples are integers, at most `X` and `Y` in absolute value, and `n ^ 2 * X * Y` is at most `2 ^ 49`. -/
structure SmallIntegers (x y : Fin n → ℤ) (X Y : ℤ) : Prop where
  posX : 1 ≤ X
  posY : 1 ≤ Y
  boundX : ∀ i, |x i| ≤ X
  boundY : ∀ i, |y i| ≤ Y
  prod : (n : ℤ) ^ 2 * X * Y ≤ 2 ^ 49
  sqX : X ^ 2 ≤ 2 ^ 51
  sqY : Y ^ 2 ≤ 2 ^ 51

theorem SmallIntegers.size {x y : Fin n → ℤ} {X Y : ℤ} (h : SmallIntegers x y X Y) :
    16 * (n * (n * (X * Y))) ≤ 2 ^ 53 ∧ 4 * (X * X) ≤ 2 ^ 53 ∧ 4 * (Y * Y) ≤ 2 ^ 53 := by
  have h1 := h.prod
  have h2 := h.sqX
  have h3 := h.sqY
  refine ⟨?_, by nlinarith, by nlinarith⟩
  have e : (n : ℤ) * (n * (X * Y)) = (n : ℤ) ^ 2 * X * Y := by ring
  rw [e]
  linarith

theorem SmallIntegers.ofInt {x y : Fin n → ℤ} {X Y : ℤ} (h : SmallIntegers x y X Y) :
    (fun i => (binary64 sqrt sum dot).ofInt (x i)) = (fun i => (x i : ℚ)) ∧
      (fun i => (binary64 sqrt sum dot).ofInt (y i)) = fun i => (y i : ℚ) := by
  have e1 := h.size.2.1
  have e2 := h.size.2.2
  have p1 := h.posX
  have p2 := h.posY
  constructor
  · funext i
    exact round64_int _ ((h.boundX i).trans (by nlinarith))
  · funext i
    exact round64_int _ ((h.boundY i).trans (by nlinarith))

/-- The terms of the definition, for integers. -/
def intTerms (x y : Fin n → ℤ) : CoreTerms ℤ n where
  meanProd := ∑ i, ∑ j, |x i - x j| * |y i - y j|
  aAxis := fun i => ∑ j, |x i - x j|
  aTotal := ∑ i, ∑ j, |x i - x j|
  bAxis := fun i => ∑ j, |y i - y j|
  bTotal := ∑ i, ∑ j, |y i - y j|

/-- `binary64.ofInt` of the terms. -/
def roundTerms (t : CoreTerms ℤ n) : CoreTerms ℚ n where
  meanProd := round64 t.meanProd
  aAxis := fun i => round64 (t.aAxis i)
  aTotal := round64 t.aTotal
  bAxis := fun i => round64 (t.bAxis i)
  bTotal := round64 t.bTotal

theorem CoreRel.eq_roundTerms {t : CoreTerms ℚ n} {z : CoreTerms ℤ n}
    (h : CoreRel (fun r z => r = (binary64 sqrt sum dot).ofInt z) t z) : t = roundTerms z := by
  cases t
  unfold roundTerms
  congr 1
  · exact h.meanProd
  · exact funext h.aAxis
  · exact h.aTotal
  · exact funext h.bAxis
  · exact h.bTotal

variable (h : IsFloat64 sqrt sum dot) {x y : Fin n → ℤ} {X Y : ℤ} (hs : SmallIntegers x y X Y)
  (argsort : (Fin n → ℚ) → Equiv.Perm (Fin n)) (hsort : ∀ v : Fin n → ℚ, Monotone fun i => v (argsort v i))

include hsort in
theorem sorted_int (x y : Fin n → ℤ) :
    Monotone (fun i => x (argsort (fun i => (x i : ℚ)) i)) ∧ Monotone (fun i => y (argsort (fun i => (y i : ℚ)) i)) ∧
      Monotone (fun i => y (argsort (fun i => (x i : ℚ))
        (argsort (fun i => (y (argsort (fun i => (x i : ℚ)) i) : ℚ)) i))) := by
  refine ⟨fun i j hij => ?_, fun i j hij => ?_, fun i j hij => ?_⟩
  · exact Int.cast_le.1 (hsort (fun i => (x i : ℚ)) hij)
  · exact Int.cast_le.1 (hsort (fun i => (y i : ℚ)) hij)
  · exact Int.cast_le.1 (hsort (fun i => (y (argsort (fun i => (x i : ℚ)) i) : ℚ)) hij)

include h hs hsort

/-- C66: on integers, the AVL method computes the sums of the definition without any rounding error. -/
theorem C66_avl_terms_exact (hn : 3 < n) (compiled : Bool) :
    (binary64 sqrt sum dot).avlTerms compiled argsort (fun i => (x i : ℚ)) (fun i => (y i : ℚ))
      = .ok (roundTerms (intTerms x y)) := by
  have hM : 4 * ((n : ℤ) * (n * (X * Y))) ≤ 2 ^ 53 := by
    have h1 := hs.size.1
    have p1 := hs.posX
    have p2 := hs.posY
    have : 0 ≤ (n : ℤ) * (n * (X * Y)) := by positivity
    linarith
  obtain ⟨t, e, ht⟩ := (binary64_intExact h).avlTermsWith (Nat.le_pow_clog (by norm_num) n) compiled argsort x y hn
    hs.posX hs.posY hs.boundX hs.boundY hM
  obtain ⟨e1, e2⟩ := hs.ofInt (sqrt := sqrt) (sum := sum) (dot := dot)
  have e3 : (fun i => (binary64 sqrt sum dot).ofInt (y (argsort (fun i => (x i : ℚ)) i)))
      = fun i => (y (argsort (fun i => (x i : ℚ)) i) : ℚ) := by
    funext i
    exact congrFun e2 _
  rw [e1, e2] at e ht
  rw [e3] at ht
  obtain ⟨m1, m2, m3⟩ := sorted_int argsort hsort x y
  rw [permTerms_eq _ _ _ x y m1 m2 m3] at ht
  rw [Arith.avlTerms, e, CoreRel.eq_roundTerms ht]
  rfl

omit hsort in
/-- C66: on integers, the naive method computes the sums of the definition without any rounding error. -/
theorem C66_naive_terms_exact (hn : 0 < n) :
    ((binary64 sqrt sum dot).naiveTerms ((binary64 sqrt sum dot).euclidean fun i (_ : Fin 1) => (x i : ℚ))
      ((binary64 sqrt sum dot).euclidean fun i (_ : Fin 1) => (y i : ℚ))).core = roundTerms (intTerms x y) := by
  have hM : 4 * ((n : ℤ) * (n * (X * Y))) ≤ 2 ^ 53 := by
    have h1 := hs.size.1
    have p1 := hs.posX
    have p2 := hs.posY
    have : 0 ≤ (n : ℤ) * (n * (X * Y)) := by positivity
    linarith
  have ht := (binary64_intExact h).naiveTerms x y hs.posX hs.posY hs.boundX hs.boundY hn hM hs.size.2.1 hs.size.2.2
  obtain ⟨e1, e2⟩ := hs.ofInt (sqrt := sqrt) (sum := sum) (dot := dot)
  have e1' : (fun i (_ : Fin 1) => (binary64 sqrt sum dot).ofInt (x i)) = fun i _ => (x i : ℚ) := by
    funext i _; exact congrFun e1 i
  have e2' : (fun i (_ : Fin 1) => (binary64 sqrt sum dot).ofInt (y i)) = fun i _ => (y i : ℚ) := by
    funext i _; exact congrFun e2 i
  rw [e1', e2'] at ht
  exact CoreRel.eq_roundTerms ht

/-- C66: on integers, the mergesort method computes the sums of the definition without any rounding error, with
the rows in the order of the sorted `x`. -/
theorem C66_mergesort_terms_exact (hn : 0 < n) :
    (binary64 sqrt sum dot).mergesortTerms (fun a b => decide (b ≤ a)) argsort (fun i => (x i : ℚ))
        (fun i => (y i : ℚ))
      = .ok (roundTerms (intTerms (fun i => x (argsort (fun i => (x i : ℚ)) i))
          (fun i => y (argsort (fun i => (x i : ℚ)) i)))) := by
  obtain ⟨t, e, ht⟩ := (binary64_intExact h).mergesortTerms (isGe_le (R := ℚ)) argsort x y hs.posX hs.posY
    hs.boundX hs.boundY hn hs.size.1
  obtain ⟨e1, e2⟩ := hs.ofInt (sqrt := sqrt) (sum := sum) (dot := dot)
  have e3 : (fun i => (binary64 sqrt sum dot).ofInt (y (argsort (fun i => (x i : ℚ)) i)))
      = fun i => (y (argsort (fun i => (x i : ℚ)) i) : ℚ) := by
    funext i
    exact congrFun e2 _
  rw [e1, e2] at e
  rw [e1] at ht
  rw [e3] at ht
  obtain ⟨m1, m2, m3⟩ := sorted_int argsort hsort x y
  generalize hσ : (argsort fun i => (x i : ℚ)) = σ at *
  generalize hτ : (argsort fun i => (y (σ i) : ℚ)) = τ at *
  rw [e]
  congr 1
  have e4 : mergeSpecTerms (fun a b => decide ((binary64 sqrt sum dot).ofInt b ≤ (binary64 sqrt sum dot).ofInt a)) σ τ x y
      = mergeSpecTerms (fun a b : ℤ => decide (b ≤ a)) σ τ x y := by
    unfold mergeSpecTerms
    have : ∀ i j : Fin n, decide ((binary64 sqrt sum dot).ofInt (y (σ j)) ≤ (binary64 sqrt sum dot).ofInt (y (σ i)))
        = decide (y (σ j) ≤ y (σ i)) := by
      intro i j
      have q1 := congrFun e2 (σ i)
      have q2 := congrFun e2 (σ j)
      rw [q1, q2]
      simp
    simp only [this]
  rw [e4, mergeSpecTerms_eq σ τ x y m1 m3] at ht
  rw [CoreRel.eq_roundTerms ht]
  unfold intTerms
  congr 2
  · rw [← Equiv.sum_comp σ]
    exact Finset.sum_congr rfl fun i _ => by rw [← Equiv.sum_comp σ]
  · funext i
    rw [← Equiv.sum_comp σ]
  · rw [← Equiv.sum_comp σ]
    exact Finset.sum_congr rfl fun i _ => by rw [← Equiv.sum_comp σ]
  · funext i
    rw [← Equiv.sum_comp σ]
  · rw [← Equiv.sum_comp σ]
    exact Finset.sum_congr rfl fun i _ => by rw [← Equiv.sum_comp σ]

/-- C66: on integers, the AVL method and the naive method return the same squared distance covariance, bit for
bit, whatever the order in which NumPy sums. -/
theorem C66_avl_eq_naive (hn : 3 < n) (biasCorrected compiled : Bool) :
    ∃ s, (binary64 sqrt sum dot).avlStats biasCorrected compiled argsort (fun i => (x i : ℚ)) (fun i => (y i : ℚ))
        = .ok s ∧
      s.cov = ((binary64 sqrt sum dot).naiveStats biasCorrected (fun i (_ : Fin 1) => (x i : ℚ))
        (fun i (_ : Fin 1) => (y i : ℚ))).cov := by
  unfold Arith.avlStats
  rw [C66_avl_terms_exact h hs argsort hsort hn compiled]
  refine ⟨_, rfl, ?_⟩
  unfold Arith.naiveStats Arith.statsFromTerms
  dsimp only
  rw [C66_naive_terms_exact h hs (by omega)]

/-- C66: on integers, the mergesort method returns, bit for bit, the squared distance covariance of the naive
method for the observations sorted by `x`. -/
theorem C66_mergesort_eq_naive_sorted (hn : 0 < n) (biasCorrected : Bool) :
    ∃ s, (binary64 sqrt sum dot).mergesortStats biasCorrected (fun a b => decide (b ≤ a)) argsort
        (fun i => (x i : ℚ)) (fun i => (y i : ℚ)) = .ok s ∧
      s.cov = ((binary64 sqrt sum dot).naiveStats biasCorrected
        (fun i (_ : Fin 1) => (x (argsort (fun i => (x i : ℚ)) i) : ℚ))
        (fun i (_ : Fin 1) => (y (argsort (fun i => (x i : ℚ)) i) : ℚ))).cov := by
  unfold Arith.mergesortStats
  rw [C66_mergesort_terms_exact h hs argsort hsort hn]
  refine ⟨_, rfl, ?_⟩
  unfold Arith.naiveStats Arith.statsFromTerms
  dsimp only
  have hs' : SmallIntegers (fun i => x (argsort (fun i => (x i : ℚ)) i)) (fun i => y (argsort (fun i => (x i : ℚ)) i))
      X Y := ⟨hs.posX, hs.posY, fun i => hs.boundX _, fun i => hs.boundY _, hs.prod, hs.sqX, hs.sqY⟩
  rw [C66_naive_terms_exact h hs' hn]

omit h hs hsort

/-- Ten thousand observations with values up to two thousand. -/
example (x y : Fin 10000 → ℤ) (hx : ∀ i, |x i| ≤ 2000) (hy : ∀ i, |y i| ≤ 2000) : SmallIntegers x y 2000 2000 :=
  ⟨by norm_num, by norm_num, hx, hy, by norm_num, by norm_num, by norm_num⟩

/-- There is a sorting function, and square roots and sums as assumed exist. -/
example : ∃ (sqrt : ℚ → ℚ) (argsort : (Fin 4 → ℚ) → Equiv.Perm (Fin 4)),
    IsFloat64 sqrt seqSum64 seqDot64 ∧ (∀ v : Fin 4 → ℚ, Monotone fun i => v (argsort v i)) := by
  obtain ⟨sqrt, h⟩ := exists_isFloat64
  exact ⟨sqrt, fun v => Tuple.sort v, h, fun v => Tuple.monotone_sort v⟩

example : SmallIntegers (![0, 3, -1, 2] : Fin 4 → ℤ) ![5, 5, 0, -7] 3 7 where
  posX := by norm_num
  posY := by norm_num
  boundX := by decide
  boundY := by decide
  prod := by norm_num
  sqX := by norm_num
  sqY := by norm_num

end C66

end Dcor.Props

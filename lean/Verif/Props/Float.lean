/-
C67–C71: what holds, and what fails, in `float64` arithmetic.
-/
import Verif.Proofs.FloatWitness

namespace Dcor.Props

open Dcor

variable {sqrt : ℚ → ℚ} {sum : List ℚ → ℚ} {dot : List (ℚ × ℚ) → ℚ} {n p q : ℕ}

/-! ### C67: constant samples -/

theorem round_clip_zero (h : IsFloat64 sqrt sum dot) : (binary64 sqrt sum dot).sqrtClip 0 = 0 := by
  unfold Arith.sqrtClip
  show sqrt (if decide ((0 : ℚ) < round64 ((0 : ℤ) : ℚ)) = true then round64 ((0 : ℤ) : ℚ) else 0) = 0
  rw [Int.cast_zero, round64_zero, ite_self]
  exact (h.sqrt 0 le_rfl).eq_zero.2 rfl

theorem eqZero_iff (a : ℚ) : (binary64 sqrt sum dot).eqZero a = true ↔ a = 0 := by
  unfold Arith.eqZero
  show decide (a = round64 ((0 : ℤ) : ℚ)) = true ↔ _
  rw [Int.cast_zero, round64_zero, decide_eq_true_eq]

/-- C67: with the naive method, the squared distance covariance, the squared distance correlation and the squared
distance variance of a constant sample are exactly zero in `float64`, for every dimension, every order of the
sums and both estimators. -/
theorem C67_constant_naive_partial (h : IsFloat64 sqrt sum dot) (bc : Bool) (c : Fin p → ℚ) (y : Fin n → Fin q → ℚ) :
    ((binary64 sqrt sum dot).naiveStats bc (fun _ => c) y).cov = 0 ∧
      ((binary64 sqrt sum dot).naiveStats bc (fun _ => c) y).corr = 0 ∧
      ((binary64 sqrt sum dot).naiveStats bc (fun _ => c) y).varX = 0 := by
  have hd : (binary64 sqrt sum dot).euclidean (fun _ : Fin n => c) = fun _ _ => 0 := by
    funext i j
    show sqrt (sum (List.ofFn fun k => round64 (round64 (c k - c k) * round64 (c k - c k)))) = 0
    rw [(h.sum _).zero, (h.sqrt 0 le_rfl).eq_zero.2 rfl]
    intro a ha
    obtain ⟨k, rfl⟩ := List.mem_ofFn.1 ha
    rw [sub_self, round64_zero, mul_zero, round64_zero]
  have hsum : ∀ m : ℕ, (binary64 sqrt sum dot).vsum (fun _ : Fin m => (0 : ℚ)) = 0 := by
    intro m
    apply (h.sum _).zero
    intro a ha
    obtain ⟨k, rfl⟩ := List.mem_ofFn.1 ha
    rfl
  have hdot : ∀ b : Fin n → Fin n → ℚ, (binary64 sqrt sum dot).mdot (fun _ _ => 0) b = 0 := by
    intro b
    apply (h.dot _).zero
    intro pr hp
    simp only [List.mem_flatMap, List.mem_map] at hp
    obtain ⟨i, _, j, _, rfl⟩ := hp
    simp
  have hvdot : ∀ b : Fin n → ℚ, (binary64 sqrt sum dot).vdot (fun _ => 0) b = 0 := by
    intro b
    apply (h.dot _).zero
    intro pr hp
    obtain ⟨k, rfl⟩ := List.mem_ofFn.1 hp
    simp
  have hdiv : ∀ k : ℤ, (binary64 sqrt sum dot).idiv 0 k = 0 := by
    intro k
    show round64 (0 / _) = 0
    rw [zero_div, round64_zero]
  have haxis : (binary64 sqrt sum dot).axisSum (fun _ _ : Fin n => (0 : ℚ)) = fun _ => 0 := funext fun _ => hsum n
  have hmul : ∀ b : ℚ, (binary64 sqrt sum dot).mul 0 b = 0 := fun b => by
    show round64 (0 * b) = 0
    rw [zero_mul, round64_zero]
  have himul : ∀ k : ℤ, (binary64 sqrt sum dot).imul k 0 = 0 := fun k => by
    show round64 (_ * 0) = 0
    rw [mul_zero, round64_zero]
  have hfrom : ∀ (ba : Fin n → ℚ) (bt : ℚ), (binary64 sqrt sum dot).fromTerms bc 0 (fun _ => 0) 0 ba bt = 0 := by
    intro ba bt
    unfold Arith.fromTerms
    simp only [hdiv, hvdot, hmul, himul]
    show round64 (round64 (0 - 0) + 0) = 0
    rw [sub_zero, round64_zero, add_zero, round64_zero]
  have hcov : ((binary64 sqrt sum dot).naiveStats bc (fun _ => c) y).cov = 0 := by
    unfold Arith.naiveStats Arith.statsFromTerms Arith.covFromTerms Arith.naiveTerms
    rw [hd]
    simp only [hdot, haxis, hsum, hfrom]
  have hvar : ((binary64 sqrt sum dot).naiveStats bc (fun _ => c) y).varX = 0 := by
    unfold Arith.naiveStats Arith.statsFromTerms Arith.naiveTerms
    rw [hd]
    simp only [hdot, haxis, hsum, hfrom]
  refine ⟨hcov, ?_, hvar⟩
  unfold Arith.naiveStats Arith.statsFromTerms Arith.naiveTerms at hvar ⊢
  dsimp only at hvar ⊢
  rw [hvar, hmul]
  have e : (binary64 sqrt sum dot).abs 0 = 0 := abs_zero
  rw [e, round_clip_zero h, if_pos ((eqZero_iff _).2 rfl)]
  show round64 ((0 : ℤ) : ℚ) = 0
  rw [Int.cast_zero, round64_zero]

example (y : Fin 100 → Fin 3 → ℚ) :
    ((binary64 sqrt64 seqSum64 seqDot64).naiveStats true (fun _ : Fin 100 => ![round64 (1 / 10), 1 / 2]) y).corr = 0 :=
  (C67_constant_naive_partial float64_seq.1 true _ y).2.1

/-- The terms computed by the AVL method for `[0.1, 0.1, 0.1, 0.1]` and `[1, 2, 3, 5]`. -/
def constTerms : CoreTerms ℚ 4 where
  meanProd := 0
  aAxis := ![0, 0, -1 / 18014398509481984, 0]
  aTotal := 0
  bAxis := ![7, 5, 5, 9]
  bTotal := 26

/-- C67 fails for the AVL method, the default for such arrays: the squared distance covariance of
`[0.1, 0.1, 0.1, 0.1]` and `[1, 2, 3, 5]` is positive, the squared distance variance of the constant sample is
negative, and their squared distance correlation is more than 0.7, instead of zero. -/
theorem C67_constant_avl_fails (h : IsFloat64 sqrt seqSum64 dot) {argsort : (Fin 4 → ℚ) → Equiv.Perm (Fin 4)}
    (hsort : KeepsSorted argsort) (compiled : Bool) :
    ∃ s, (binary64 sqrt seqSum64 dot).avlStats false compiled argsort (fun _ => round64 (1 / 10)) ![1, 2, 3, 5] = .ok s ∧
      0 < s.cov ∧ s.varX < 0 ∧ 7 / 10 < s.corr := by
  refine ⟨_, avlStats_sorted (t := constTerms) hsort false compiled (fun _ _ _ => le_rfl)
    (monotone4 (by decide +kernel)) (by cases compiled <;> decide +kernel), ?_⟩
  have hv : (binary64 sqrt seqSum64 dot).varTerm (fun _ : Fin 4 => round64 (1 / 10)) = 0 := by
    show (binary64 id seqSum64 (fun _ => 0)).varTerm (fun _ : Fin 4 => round64 (1 / 10)) = 0
    decide +kernel
  have hw : (binary64 sqrt seqSum64 dot).varTerm ![1, 2, 3, 5] = 70 := by
    show (binary64 id seqSum64 (fun _ => 0)).varTerm ![1, 2, 3, 5] = 70
    decide +kernel
  have d1 : (binary64 sqrt seqSum64 dot).vdot
      (fun i => (binary64 sqrt seqSum64 dot).idiv (constTerms.aAxis i) (4 : ℕ)) constTerms.bAxis
      = -5 / 72057594037927936 := by
    show dot (List.ofFn fun i => (round64 (constTerms.aAxis i / round64 ((4 : ℤ) : ℚ)), constTerms.bAxis i)) = _
    have e : (List.ofFn fun i => (round64 (constTerms.aAxis i / round64 ((4 : ℤ) : ℚ)), constTerms.bAxis i))
        = [(0, 7), (0, 5), (-1 / 72057594037927936, 5), (0, 9)] := by decide +kernel
    rw [e]
    rw [(h.dot _).exact_scaled 56 0 (by decide +kernel) (by decide +kernel)]
    decide +kernel
  have d2 : (binary64 sqrt seqSum64 dot).vdot
      (fun i => (binary64 sqrt seqSum64 dot).idiv (constTerms.aAxis i) (4 : ℕ)) constTerms.aAxis
      = 1 / (72057594037927936 * 18014398509481984) := by
    show dot (List.ofFn fun i => (round64 (constTerms.aAxis i / round64 ((4 : ℤ) : ℚ)), constTerms.aAxis i)) = _
    have e : (List.ofFn fun i => (round64 (constTerms.aAxis i / round64 ((4 : ℤ) : ℚ)), constTerms.aAxis i))
        = [(0, 0), (0, 0), (-1 / 72057594037927936, -1 / 18014398509481984), (0, 0)] := by decide +kernel
    rw [e]
    rw [(h.dot _).exact_scaled 56 54 (by decide +kernel) (by decide +kernel)]
    decide +kernel
  have d3 : (binary64 sqrt seqSum64 dot).vdot
      (fun i => (binary64 sqrt seqSum64 dot).idiv (constTerms.bAxis i) (4 : ℕ)) constTerms.bAxis = 45 := by
    show dot (List.ofFn fun i => (round64 (constTerms.bAxis i / round64 ((4 : ℤ) : ℚ)), constTerms.bAxis i)) = _
    have e : (List.ofFn fun i => (round64 (constTerms.bAxis i / round64 ((4 : ℤ) : ℚ)), constTerms.bAxis i))
        = [(7 / 4, 7), (5 / 4, 5), (5 / 4, 5), (9 / 4, 9)] := by decide +kernel
    rw [e]
    rw [(h.dot _).exact_scaled 2 0 (by decide +kernel) (by decide +kernel)]
    decide +kernel
  have f1 : fromTerms4 0 (-5 / 72057594037927936) 0 26 = 5 / 576460752303423488 := by decide +kernel
  have f2 : fromTerms4 0 (1 / (72057594037927936 * 18014398509481984)) 0 0
      = -1 / 10384593717069655257060992658440192 := by decide +kernel
  have f3 : fromTerms4 70 45 26 26 = 89 / 64 := by decide +kernel
  unfold Arith.statsFromTerms Arith.covFromTerms
  dsimp only
  rw [hv, hw, show constTerms.meanProd = 0 from rfl, show constTerms.aTotal = 0 from rfl,
    show constTerms.bTotal = 26 from rfl, fromTerms4_eq d1, fromTerms4_eq d2, fromTerms4_eq d3, f1, f2, f3]
  refine ⟨by norm_num, by norm_num, ?_⟩
  have hden : (binary64 sqrt seqSum64 dot).sqrtClip ((binary64 sqrt seqSum64 dot).abs
      ((binary64 sqrt seqSum64 dot).mul (-1 / 10384593717069655257060992658440192) (89 / 64)))
      = sqrt (89 / 664613997892457936451903530140172288) := by
    show sqrt (if decide (|round64 (-1 / 10384593717069655257060992658440192 * (89 / 64))| < round64 ((0 : ℤ) : ℚ)) = true
      then round64 ((0 : ℤ) : ℚ) else |round64 (-1 / 10384593717069655257060992658440192 * (89 / 64))|) = _
    congr 1
    decide +kernel
  rw [hden]
  have hsq := h.sqrt (89 / 664613997892457936451903530140172288) (by norm_num)
  rw [if_neg]
  · have := hsq.div_ge (a := 5 / 576460752303423488) (b := 74 / 100) (by norm_num) (by norm_num) (by norm_num)
      (by norm_num)
    refine lt_of_lt_of_le ?_ this
    norm_num
  · rw [eqZero_iff, hsq.eq_zero]
    norm_num

/-! ### C68: translations and reflections -/

/-- C68: with the naive method, adding constants to the columns or changing their signs changes no bit of the
results, if the additions themselves are exact. -/
theorem C68_translation_naive_partial (sqrt : ℚ → ℚ) (sum : List ℚ → ℚ) (dot : List (ℚ × ℚ) → ℚ) (bc : Bool)
    (x : Fin n → Fin p → ℚ) (y : Fin n → Fin q → ℚ) (c s : Fin p → ℚ) (d t : Fin q → ℚ)
    (hs : ∀ k, s k = 1 ∨ s k = -1) (ht : ∀ k, t k = 1 ∨ t k = -1) :
    (binary64 sqrt sum dot).naiveStats bc (fun i k => s k * x i k + c k) (fun i k => t k * y i k + d k)
      = (binary64 sqrt sum dot).naiveStats bc x y := by
  have key : ∀ {p : ℕ} (x : Fin n → Fin p → ℚ) (c s : Fin p → ℚ), (∀ k, s k = 1 ∨ s k = -1) →
      (binary64 sqrt sum dot).euclidean (fun i k => s k * x i k + c k) = (binary64 sqrt sum dot).euclidean x := by
    intro p x c s hs
    funext i j
    unfold Arith.euclidean
    congr 2
    funext k
    show round64 (round64 (s k * x i k + c k - (s k * x j k + c k)) * round64 (s k * x i k + c k - (s k * x j k + c k)))
      = round64 (round64 (x i k - x j k) * round64 (x i k - x j k))
    rcases hs k with e | e
    · rw [e, show 1 * x i k + c k - (1 * x j k + c k) = x i k - x j k by ring]
    · rw [e, show -1 * x i k + c k - (-1 * x j k + c k) = -(x i k - x j k) by ring, round64_neg, neg_mul_neg]
  unfold Arith.naiveStats
  rw [key x c s hs, key y d t ht]

example : (binary64 sqrt64 seqSum64 seqDot64).naiveStats true
      (fun (i : Fin 4) (_ : Fin 1) => -1 * (![0, 1, 2, 4] : Fin 4 → ℚ) i + 2 ^ 30)
      (fun (i : Fin 4) (_ : Fin 1) => 1 * (![7, 5, 5, 9] : Fin 4 → ℚ) i + 0)
    = (binary64 sqrt64 seqSum64 seqDot64).naiveStats true (fun i (_ : Fin 1) => (![0, 1, 2, 4] : Fin 4 → ℚ) i)
      (fun i (_ : Fin 1) => (![7, 5, 5, 9] : Fin 4 → ℚ) i) :=
  C68_translation_naive_partial _ _ _ true _ _ _ _ _ _ (fun _ => Or.inr rfl) (fun _ => Or.inl rfl)

/-- The terms computed by the AVL method for `[0, 1, 2, 4]` and itself. -/
def gapTerms : CoreTerms ℚ 4 where
  meanProd := 70
  aAxis := ![7, 5, 5, 9]
  aTotal := 26
  bAxis := ![7, 5, 5, 9]
  bTotal := 26

/-- The terms computed by the AVL method for `[2 ** 30, 2 ** 30 + 1, 2 ** 30 + 2, 2 ** 30 + 4]` and itself. -/
def gapTerms' : CoreTerms ℚ 4 := { gapTerms with meanProd := 0 }

theorem gap_dot (h : IsFloat64 sqrt sum dot) : (binary64 sqrt sum dot).vdot
    (fun i => (binary64 sqrt sum dot).idiv (gapTerms.aAxis i) (4 : ℕ)) gapTerms.aAxis = 45 := by
  show dot (List.ofFn fun i => (round64 (gapTerms.aAxis i / round64 ((4 : ℤ) : ℚ)), gapTerms.aAxis i)) = _
  have e : (List.ofFn fun i => (round64 (gapTerms.aAxis i / round64 ((4 : ℤ) : ℚ)), gapTerms.aAxis i))
      = [(7 / 4, 7), (5 / 4, 5), (5 / 4, 5), (9 / 4, 9)] := by decide +kernel
  rw [e]
  rw [(h.dot _).exact_scaled 2 0 (by decide +kernel) (by decide +kernel)]
  decide +kernel

/-- The denominator of the correlation, for two equal variances. -/
theorem denominator_self (h : IsFloat64 sqrt sum dot) {v : ℚ} (hv : round64 v = v) :
    (binary64 sqrt sum dot).sqrtClip ((binary64 sqrt sum dot).abs ((binary64 sqrt sum dot).mul v v)) = |v| := by
  show sqrt (if decide (|round64 (v * v)| < round64 ((0 : ℤ) : ℚ)) = true then round64 ((0 : ℤ) : ℚ)
    else |round64 (v * v)|) = _
  have h0 : 0 ≤ round64 (v * v) := round64_nonneg (mul_self_nonneg v)
  rw [abs_of_nonneg h0, Int.cast_zero, round64_zero, if_neg (by simpa using h0)]
  exact (h.sqrt _ h0).round_square hv

theorem gap_stats (h : IsFloat64 sqrt sum dot) (mp c : ℚ) (hc : fromTerms4 mp 45 26 26 = c) :
    (binary64 sqrt sum dot).statsFromTerms false
      { core := { gapTerms with meanProd := mp }, aMeanProd := 70, bMeanProd := 70 }
      = { cov := c, corr := round64 (c / (89 / 64)), varX := 89 / 64, varY := 89 / 64 } := by
  have f3 : fromTerms4 70 45 26 26 = 89 / 64 := by decide +kernel
  have hb : gapTerms.bAxis = gapTerms.aAxis := rfl
  have ht : gapTerms.aTotal = 26 := rfl
  have ht' : gapTerms.bTotal = 26 := rfl
  unfold Arith.statsFromTerms Arith.covFromTerms
  dsimp only
  rw [hb, ht, ht', fromTerms4_eq (gap_dot h), fromTerms4_eq (gap_dot h), hc, f3,
    denominator_self h (by decide +kernel)]
  rw [if_neg (by rw [eqZero_iff]; norm_num)]
  rw [abs_of_pos (by norm_num)]
  rfl

/-- C68 fails for the AVL method: the squared distance covariance of `[0, 1, 2, 4]` with itself is 89/64, and that
of the same numbers plus `2 ** 30` (all of them exact in `float64`) is -191/64; the squared distance correlation
changes from 1 to less than -2, so `distance_correlation` changes from one to zero. -/
theorem C68_translation_avl_fails (h : IsFloat64 sqrt seqSum64 dot) {argsort : (Fin 4 → ℚ) → Equiv.Perm (Fin 4)}
    (hsort : KeepsSorted argsort) (compiled : Bool) :
    ∃ s s', (binary64 sqrt seqSum64 dot).avlStats false compiled argsort ![0, 1, 2, 4] ![0, 1, 2, 4] = .ok s ∧
      (binary64 sqrt seqSum64 dot).avlStats false compiled argsort
        (fun i => (![0, 1, 2, 4] : Fin 4 → ℚ) i + 2 ^ 30) (fun i => (![0, 1, 2, 4] : Fin 4 → ℚ) i + 2 ^ 30) = .ok s' ∧
      s.cov = 89 / 64 ∧ s.corr = 1 ∧ s'.cov = -191 / 64 ∧ s'.varX = 89 / 64 ∧ s'.corr < -2 := by
  have hv : (binary64 sqrt seqSum64 dot).varTerm ![0, 1, 2, 4] = 70 := by
    show (binary64 id seqSum64 (fun _ => 0)).varTerm ![0, 1, 2, 4] = 70
    decide +kernel
  have hw : (binary64 sqrt seqSum64 dot).varTerm (fun i => (![0, 1, 2, 4] : Fin 4 → ℚ) i + 2 ^ 30) = 70 := by
    show (binary64 id seqSum64 (fun _ => 0)).varTerm (fun i => (![0, 1, 2, 4] : Fin 4 → ℚ) i + 2 ^ 30) = 70
    decide +kernel
  have m1 : Monotone (![0, 1, 2, 4] : Fin 4 → ℚ) := monotone4 (by decide +kernel)
  have m2 : Monotone (fun i => (![0, 1, 2, 4] : Fin 4 → ℚ) i + 2 ^ 30) := fun i j hij => by
    have := m1 hij
    simp only
    linarith
  refine ⟨_, _, avlStats_sorted (t := { gapTerms with meanProd := 70 }) hsort false compiled m1 m1
      (by cases compiled <;> decide +kernel),
    avlStats_sorted (t := { gapTerms with meanProd := 0 }) hsort false compiled m2 m2
      (by cases compiled <;> decide +kernel), ?_⟩
  rw [hv, hw, gap_stats h 70 (89 / 64) (by decide +kernel), gap_stats h 0 (-191 / 64) (by decide +kernel)]
  exact ⟨rfl, by decide +kernel, rfl, rfl, by decide +kernel⟩

/-! ### C69: the correlation of a sample with itself -/

/-- C69: with the naive method, the squared distance correlation of a sample with itself is exactly 1 if its computed
variance is positive, for every dimension, every order of the sums and both estimators. -/
theorem C69_self_correlation_naive_partial (h : IsFloat64 sqrt sum dot) (bc : Bool) (x : Fin n → Fin p → ℚ)
    (hv : 0 < ((binary64 sqrt sum dot).naiveStats bc x x).varX) :
    ((binary64 sqrt sum dot).naiveStats bc x x).corr = 1 := by
  have e1 : ((binary64 sqrt sum dot).naiveStats bc x x).varY = ((binary64 sqrt sum dot).naiveStats bc x x).varX := rfl
  have e2 : ((binary64 sqrt sum dot).naiveStats bc x x).cov = ((binary64 sqrt sum dot).naiveStats bc x x).varX := rfl
  have e3 : ((binary64 sqrt sum dot).naiveStats bc x x).corr
      = if (binary64 sqrt sum dot).eqZero ((binary64 sqrt sum dot).sqrtClip ((binary64 sqrt sum dot).abs
          ((binary64 sqrt sum dot).mul ((binary64 sqrt sum dot).naiveStats bc x x).varX
            ((binary64 sqrt sum dot).naiveStats bc x x).varY))) = true then (binary64 sqrt sum dot).ofInt 0
        else (binary64 sqrt sum dot).div ((binary64 sqrt sum dot).naiveStats bc x x).cov
          ((binary64 sqrt sum dot).sqrtClip ((binary64 sqrt sum dot).abs
            ((binary64 sqrt sum dot).mul ((binary64 sqrt sum dot).naiveStats bc x x).varX
              ((binary64 sqrt sum dot).naiveStats bc x x).varY))) := rfl
  have e4 : round64 ((binary64 sqrt sum dot).naiveStats bc x x).varX = ((binary64 sqrt sum dot).naiveStats bc x x).varX := by
    show round64 (round64 _) = round64 _
    exact round64_idem _
  rw [e3, e1, e2]
  generalize ((binary64 sqrt sum dot).naiveStats bc x x).varX = v at hv e4
  rw [denominator_self h e4, abs_of_pos hv, if_neg (by rw [eqZero_iff]; exact hv.ne')]
  show round64 (v / v) = 1
  rw [div_self hv.ne']
  exact_mod_cast round64_int 1 (by norm_num)

example : 0 < ((binary64 sqrt64 seqSum64 seqDot64).naiveStats false
    (fun i (_ : Fin 1) => (![0, 1, 2, 4] : Fin 4 → ℚ) i) (fun i (_ : Fin 1) => (![0, 1, 2, 4] : Fin 4 → ℚ) i)).varX := by
  decide +kernel

/-- C69 fails for the AVL method: for `[2 ** 30, 2 ** 30 + 1, 2 ** 30 + 2, 2 ** 30 + 4]`, whose computed variance is
exact, the squared distance correlation with itself is less than -2. -/
theorem C69_self_correlation_avl_fails (h : IsFloat64 sqrt seqSum64 dot)
    {argsort : (Fin 4 → ℚ) → Equiv.Perm (Fin 4)} (hsort : KeepsSorted argsort) (compiled : Bool) :
    ∃ s, (binary64 sqrt seqSum64 dot).avlStats false compiled argsort
        (fun i => (![0, 1, 2, 4] : Fin 4 → ℚ) i + 2 ^ 30) (fun i => (![0, 1, 2, 4] : Fin 4 → ℚ) i + 2 ^ 30) = .ok s ∧
      0 < s.varX ∧ s.corr < -2 := by
  obtain ⟨_, s, _, e, _, _, _, h1, h2⟩ := C68_translation_avl_fails h hsort compiled
  exact ⟨s, e, by rw [h1]; norm_num, h2⟩

/-! ### C70: symmetry -/

/-- C70: with the naive method, exchanging the samples exchanges the variances and changes no bit of the covariance
and the correlation, if the number of observations is a power of two (and products commute in `@`). -/
theorem C70_symmetry_partial (h : IsFloat64 sqrt sum dot) (heq : Equivariant sqrt sum dot)
    (hcomm : ∀ l : List (ℚ × ℚ), dot (l.map Prod.swap) = dot l) (bc : Bool) (k : ℕ)
    (x : Fin (2 ^ k) → Fin p → ℚ) (y : Fin (2 ^ k) → Fin q → ℚ) :
    ((binary64 sqrt sum dot).naiveStats bc x y).cov = ((binary64 sqrt sum dot).naiveStats bc y x).cov ∧
      ((binary64 sqrt sum dot).naiveStats bc x y).corr = ((binary64 sqrt sum dot).naiveStats bc y x).corr ∧
      ((binary64 sqrt sum dot).naiveStats bc x y).varX = ((binary64 sqrt sum dot).naiveStats bc y x).varY := by
  have hn : round64 (((2 ^ k : ℕ) : ℤ) : ℚ) = 2 ^ (k : ℤ) := by
    have := round64_fixed (m := 1) (k := k) (by norm_num)
    push_cast at this ⊢
    rw [one_mul] at this
    rw [zpow_natCast] at this ⊢
    exact this
  have hdiv : ∀ a : ℚ, round64 a = a → (binary64 sqrt sum dot).idiv a ((2 ^ k : ℕ) : ℤ) = 2 ^ (-(k : ℤ)) * a := by
    intro a ha
    show round64 (a / round64 _) = _
    rw [hn, div_eq_mul_inv, ← zpow_neg, mul_comm, round64_scale, ha]
  have hdist : ∀ {p : ℕ} (x : Fin (2 ^ k) → Fin p → ℚ) (i j : Fin (2 ^ k)),
      round64 ((binary64 sqrt sum dot).euclidean x i j) = (binary64 sqrt sum dot).euclidean x i j := by
    intro p x i j
    refine (h.sqrt _ ?_).isFloat
    have : ∀ (l : List ℚ) (r : ℚ), SumsTo l r → (∀ a ∈ l, 0 ≤ a) → 0 ≤ r := by
      intro l r hr
      induction hr with
      | nil => exact fun _ => le_rfl
      | single a => intro ha; exact ha a (by simp)
      | add _ _ _ _ ih1 ih2 =>
        intro ha
        exact round64_nonneg (add_nonneg (ih1 fun a hb => ha a (by simp [hb])) (ih2 fun a hb => ha a (by simp [hb])))
      | perm _ hp ih => intro ha; exact ih fun a hb => ha a (hp.mem_iff.1 hb)
    refine this _ _ (h.sum _) fun a ha => ?_
    obtain ⟨c, rfl⟩ := List.mem_ofFn.1 ha
    exact round64_nonneg (mul_self_nonneg _)
  have haxis : ∀ {p : ℕ} (x : Fin (2 ^ k) → Fin p → ℚ) (i : Fin (2 ^ k)),
      round64 ((binary64 sqrt sum dot).axisSum ((binary64 sqrt sum dot).euclidean x) i)
        = (binary64 sqrt sum dot).axisSum ((binary64 sqrt sum dot).euclidean x) i := by
    intro p x i
    refine (h.sum _).isFloat fun a ha => ?_
    obtain ⟨j, rfl⟩ := List.mem_ofFn.1 ha
    exact hdist x i j
  have htotal : ∀ {p : ℕ} (x : Fin (2 ^ k) → Fin p → ℚ),
      round64 ((binary64 sqrt sum dot).vsum ((binary64 sqrt sum dot).axisSum ((binary64 sqrt sum dot).euclidean x)))
        = (binary64 sqrt sum dot).vsum ((binary64 sqrt sum dot).axisSum ((binary64 sqrt sum dot).euclidean x)) := by
    intro p x
    refine (h.sum _).isFloat fun a ha => ?_
    obtain ⟨j, rfl⟩ := List.mem_ofFn.1 ha
    exact haxis x j
  have hmdot : ∀ a b : Fin (2 ^ k) → Fin (2 ^ k) → ℚ,
      (binary64 sqrt sum dot).mdot a b = (binary64 sqrt sum dot).mdot b a := by
    intro a b
    show dot _ = dot _
    rw [← hcomm, List.map_flatMap]
    congr 1
    congr 1
    funext i
    rw [List.map_map]
    rfl
  have hvdot : ∀ a b : Fin (2 ^ k) → ℚ, (∀ i, round64 (a i) = a i) → (∀ i, round64 (b i) = b i) →
      (binary64 sqrt sum dot).vdot (fun i => (binary64 sqrt sum dot).idiv (a i) ((2 ^ k : ℕ) : ℤ)) b
        = (binary64 sqrt sum dot).vdot (fun i => (binary64 sqrt sum dot).idiv (b i) ((2 ^ k : ℕ) : ℤ)) a := by
    intro a b ha hb
    have e1 : (fun i => (binary64 sqrt sum dot).idiv (a i) ((2 ^ k : ℕ) : ℤ)) = fun i => 2 ^ (-(k : ℤ)) * a i :=
      funext fun i => hdiv _ (ha i)
    have e2 : (fun i => (binary64 sqrt sum dot).idiv (b i) ((2 ^ k : ℕ) : ℤ)) = fun i => 2 ^ (-(k : ℤ)) * b i :=
      funext fun i => hdiv _ (hb i)
    have key := scale_vdot (sqrt := sqrt) (sum := sum) heq (m := 2 ^ k) (-(k : ℤ)) 0
    simp only [zpow_zero, one_mul, add_zero] at key
    rw [e1, e2, key, key]
    congr 1
    show dot _ = dot _
    rw [← hcomm, List.map_ofFn]
    rfl
  have hthird : ∀ a b : ℚ, round64 a = a → round64 b = b →
      (binary64 sqrt sum dot).mul ((binary64 sqrt sum dot).idiv a ((2 ^ k : ℕ) : ℤ)) b
        = (binary64 sqrt sum dot).mul ((binary64 sqrt sum dot).idiv b ((2 ^ k : ℕ) : ℤ)) a := by
    intro a b ha hb
    rw [hdiv a ha, hdiv b hb]
    show round64 _ = round64 _
    congr 1
    ring
  have hcov : ((binary64 sqrt sum dot).naiveStats bc x y).cov = ((binary64 sqrt sum dot).naiveStats bc y x).cov := by
    unfold Arith.naiveStats Arith.statsFromTerms Arith.covFromTerms Arith.naiveTerms Arith.fromTerms
    dsimp only
    rw [hmdot, hvdot _ _ (haxis x) (haxis y), hthird _ _ (htotal x) (htotal y)]
  refine ⟨hcov, ?_, rfl⟩
  have hden : (binary64 sqrt sum dot).mul ((binary64 sqrt sum dot).naiveStats bc x y).varX
        ((binary64 sqrt sum dot).naiveStats bc x y).varY
      = (binary64 sqrt sum dot).mul ((binary64 sqrt sum dot).naiveStats bc y x).varX
        ((binary64 sqrt sum dot).naiveStats bc y x).varY := by
    show round64 _ = round64 _
    rw [mul_comm]
    rfl
  have hcorr : ∀ {p q : ℕ} (x : Fin (2 ^ k) → Fin p → ℚ) (y : Fin (2 ^ k) → Fin q → ℚ),
      ((binary64 sqrt sum dot).naiveStats bc x y).corr
        = (fun c d => if (binary64 sqrt sum dot).eqZero ((binary64 sqrt sum dot).sqrtClip ((binary64 sqrt sum dot).abs d))
            = true then (binary64 sqrt sum dot).ofInt 0
          else (binary64 sqrt sum dot).div c ((binary64 sqrt sum dot).sqrtClip ((binary64 sqrt sum dot).abs d)))
          ((binary64 sqrt sum dot).naiveStats bc x y).cov
          ((binary64 sqrt sum dot).mul ((binary64 sqrt sum dot).naiveStats bc x y).varX
            ((binary64 sqrt sum dot).naiveStats bc x y).varY) := fun x y => rfl
  rw [hcorr, hcorr, hcov, hden]

example : ∀ l : List (ℚ × ℚ), seqDot64 (l.map Prod.swap) = seqDot64 l := by
  intro l
  unfold seqDot64
  rw [List.map_map]
  congr 1
  apply List.map_congr_left
  intro p _
  simp only [Function.comp, Prod.fst_swap, Prod.snd_swap, mul_comm]

/-- C70 fails for three observations: the squared distance covariances of `[0, 0, 1]` and `[0, 2, 3]` and of
`[0, 2, 3]` and `[0, 0, 1]` differ. -/
theorem C70_symmetry_fails :
    ((binary64 sqrt64 seqSum64 seqDot64).naiveStats false (fun i (_ : Fin 1) => (![0, 0, 1] : Fin 3 → ℚ) i)
      (fun i (_ : Fin 1) => (![0, 2, 3] : Fin 3 → ℚ) i)).cov
    ≠ ((binary64 sqrt64 seqSum64 seqDot64).naiveStats false (fun i (_ : Fin 1) => (![0, 2, 3] : Fin 3 → ℚ) i)
      (fun i (_ : Fin 1) => (![0, 0, 1] : Fin 3 → ℚ) i)).cov := by
  decide +kernel

/-! ### C71: change of units by powers of two -/

section C71

variable (h : Equivariant sqrt sum dot) (i j : ℤ) (bc : Bool)

/-- Statistics of samples multiplied by `2 ^ i` and `2 ^ j`: the correlation is the same. -/
def rescaled (i j : ℤ) (s : Arith.StatsSqr ℚ) : Arith.StatsSqr ℚ where
  cov := 2 ^ (i + j) * s.cov
  corr := s.corr
  varX := 2 ^ (i + i) * s.varX
  varY := 2 ^ (j + j) * s.varY

include h

/-- C71 for the naive method. -/
theorem C71_power_of_two_naive (x : Fin n → Fin p → ℚ) (y : Fin n → Fin q → ℚ) :
    (binary64 sqrt sum dot).naiveStats bc (fun k c => 2 ^ i * x k c) (fun k c => 2 ^ j * y k c)
      = rescaled i j ((binary64 sqrt sum dot).naiveStats bc x y) := scale_naive h i j bc x y

variable (argsort : (Fin n → ℚ) → Equiv.Perm (Fin n))
  (hsort : ∀ (j : ℤ) (v : Fin n → ℚ), (argsort fun k => 2 ^ j * v k) = argsort v) (x y : Fin n → ℚ)

include hsort

/-- C71 for the AVL method. -/
theorem C71_power_of_two_avl (hn : 3 < n) (compiled : Bool) :
    ∃ s, (binary64 sqrt sum dot).avlStats bc compiled argsort x y = .ok s ∧
      (binary64 sqrt sum dot).avlStats bc compiled argsort (fun k => 2 ^ i * x k) (fun k => 2 ^ j * y k)
        = .ok (rescaled i j s) := by
  obtain ⟨t, e1, e2⟩ := scale_avlTerms h i j (Nat.le_pow_clog (by norm_num) n) compiled argsort hsort x y hn
  unfold Arith.avlStats Arith.avlTerms
  rw [e1, e2]
  refine ⟨_, rfl, ?_⟩
  have key := scale_stats h i j bc ⟨t, (binary64 sqrt sum dot).varTerm x, (binary64 sqrt sum dot).varTerm y⟩
  show Except.ok ((binary64 sqrt sum dot).statsFromTerms bc ⟨scaleTerms i j t,
    (binary64 sqrt sum dot).varTerm (fun k => 2 ^ i * x k), (binary64 sqrt sum dot).varTerm (fun k => 2 ^ j * y k)⟩) = _
  rw [scale_varTerm h, scale_varTerm h, key]
  rfl

/-- C71 for the mergesort method. -/
theorem C71_power_of_two_mergesort (hn : 0 < n) :
    ∃ s, (binary64 sqrt sum dot).mergesortStats bc (fun a b => decide (b ≤ a)) argsort x y = .ok s ∧
      (binary64 sqrt sum dot).mergesortStats bc (fun a b => decide (b ≤ a)) argsort (fun k => 2 ^ i * x k)
        (fun k => 2 ^ j * y k) = .ok (rescaled i j s) := by
  obtain ⟨t, e1, e2⟩ := scale_mergesortTerms h i j argsort hsort x y hn
  unfold Arith.mergesortStats
  rw [e1, e2]
  refine ⟨_, rfl, ?_⟩
  have key := scale_stats h i j bc ⟨t, (binary64 sqrt sum dot).varTerm x, (binary64 sqrt sum dot).varTerm y⟩
  show Except.ok ((binary64 sqrt sum dot).statsFromTerms bc ⟨scaleTerms i j t,
    (binary64 sqrt sum dot).varTerm (fun k => 2 ^ i * x k), (binary64 sqrt sum dot).varTerm (fun k => 2 ^ j * y k)⟩) = _
  rw [scale_varTerm h, scale_varTerm h, key]
  rfl

end C71

/-- A sorting function as assumed in C71 exists: stable sorting, or any method that only compares. -/
example : ∀ (j : ℤ) (v : Fin 7 → ℚ), Tuple.sort (fun k => 2 ^ j * v k) = Tuple.sort v := by
  intro j v
  symm
  rw [Tuple.eq_sort_iff]
  have h2 : (0 : ℚ) < 2 ^ j := by positivity
  refine ⟨fun a b hab => mul_le_mul_of_nonneg_left (Tuple.monotone_sort v hab) h2.le, fun a b hab e => ?_⟩
  exact (Tuple.eq_sort_iff.1 rfl : _ ∧ _).2 a b hab (mul_left_cancel₀ h2.ne' e)

example : Equivariant sqrt64 seqSum64 seqDot64 := float64_seq.2

end Dcor.Props

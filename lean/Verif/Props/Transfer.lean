/-
C87 and the part of C86 that holds: in `float64` with its range, samples of moderate magnitude give the same numbers as
with exponents without limits, so that the error bounds of C72, C73, C80 and C84 hold for them.
-/
import Verif.Proofs.BoundedStats
import Verif.Props.FloatCorr
import Verif.Props.FloatEnergy
import Verif.Props.Overflow

namespace Dcor.Props

open Dcor F64

variable {sqrt : F64 → F64} {sum : List F64 → F64} {dot : List (F64 × F64) → F64} {n m p q : ℕ}

/-- Multiples of `2 ** -g` that are at most `2 ** K`. -/
structure Within (g K : ℕ) (a : ℚ) : Prop where
  multiple : ∃ z : ℤ, a = z / 2 ^ g
  le : |a| ≤ 2 ^ K

/-- `float64` numbers that are zero or between `2 ** -g` and `2 ** K` are multiples of `2 ** -(g + 52)`. -/
theorem within_of_float {g K : ℕ} {a : ℚ} (hf : round64 a = a) (h : a = 0 ∨ 1 / 2 ^ g ≤ |a|) (hK : |a| ≤ 2 ^ K) :
    Within (g + 52) K a := by
  refine ⟨?_, hK⟩
  rcases h with rfl | h
  · exact ⟨0, by simp⟩
  · have := round64_grid (j := g) (q := a) (by rw [zpow_neg, zpow_natCast, ← one_div]; exact h)
    rw [hf] at this
    obtain ⟨z, hz⟩ := this
    refine ⟨z, hz.trans ?_⟩
    rw [div_eq_mul_inv, zpow_neg, ← Nat.cast_ofNat (n := 52), ← Nat.cast_add, zpow_natCast]

theorem onGrid_of_multiple {g : ℕ} {a : ℚ} (h : ∃ z : ℤ, a = z / 2 ^ g) : OnGrid g a := by
  obtain ⟨z, hz⟩ := h
  exact ⟨z, by rw [hz, zpow_neg, zpow_natCast, div_eq_mul_inv]⟩

theorem Within.grid {g K : ℕ} {a : ℚ} (h : Within g K a) : OnGrid g a := onGrid_of_multiple h.multiple

theorem Within.bd {g K : ℕ} {a : ℚ} (h : Within g K a) : Bd 1 K (fin a) := ⟨a, rfl, by simpa using h.le⟩

theorem avlStats_of_terms {R : Type} {A : Arith R} {bc compiled : Bool} {argsort : (Fin n → R) → Equiv.Perm (Fin n)}
    {x y : Fin n → R} {t : CoreTerms R n} (e : A.avlTerms compiled argsort x y = .ok t) :
    A.avlStats bc compiled argsort x y = .ok (A.statsFromTerms bc ⟨t, A.varTerm x, A.varTerm y⟩) := by
  unfold Arith.avlStats
  rw [e]
  rfl

theorem mergesortStats_of_terms {R : Type} {A : Arith R} {bc : Bool} {ge : R → R → Bool}
    {argsort : (Fin n → R) → Equiv.Perm (Fin n)} {x y : Fin n → R} {t : CoreTerms R n}
    (e : A.mergesortTerms ge argsort x y = .ok t) :
    A.mergesortStats bc ge argsort x y = .ok (A.statsFromTerms bc ⟨t, A.varTerm x, A.varTerm y⟩) := by
  unfold Arith.mergesortStats
  rw [e]
  rfl

/-! ### The part of C86 that holds -/

/-- C86 for the naive method, as far as it holds: if the observations are multiples of `2 ** -gx` and `2 ** -gy`, what is
returned for the covariance and the variances is not finite, or what it is without limits for the exponents. The same
holds for the correlation if the variances are finite and their product does not overflow. Missing: samples that are not
such multiples, whose intermediate results can underflow (see `C86_underflow`). -/
theorem C86_naive_partial (h : IsIeee64 sqrt sum dot) : ∃ sqrt' sum' dot', IsFloat64 sqrt' sum' dot' ∧
    ∀ {n p q N gx gy : ℕ} (bc : Bool) {x : Fin n → Fin p → ℚ} {y : Fin n → Fin q → ℚ}, 0 < n → (bc = true → 3 < n) →
      n ≤ 2 ^ N → gx + gy + 4 * N ≤ 301 → (∀ i k, ∃ z : ℤ, x i k = z / 2 ^ gx) → (∀ i k, ∃ z : ℤ, y i k = z / 2 ^ gy) →
      StatsRel ((ieee64 sqrt sum dot).naiveStats bc (fun i k => fin (x i k)) (fun i k => fin (y i k)))
        ((binary64 sqrt' sum' dot').naiveStats bc x y) := by
  refine ⟨_, _, _, lower_float64 h, fun bc x y hn0 hn hN hg hx hy => ?_⟩
  exact (naive_relG h bc hn0 hn hN (by omega) (by omega) (by omega) (fun i k => onGrid_of_multiple (hx i k))
    (fun i k => onGrid_of_multiple (hy i k))).1

/-- C86 for the AVL method, as far as it holds. -/
theorem C86_avl_partial (h : IsIeee64 sqrt sum dot) : ∃ sqrt' sum' dot', IsFloat64 sqrt' sum' dot' ∧
    ∀ {n N gx gy : ℕ} (bc compiled : Bool) (argsort : (Fin n → F64) → Equiv.Perm (Fin n)) {x y : Fin n → ℚ}, 3 < n →
      n ≤ 2 ^ N → gx + gy + 5 * N ≤ 277 → (∀ i, ∃ z : ℤ, x i = z / 2 ^ gx) → (∀ i, ∃ z : ℤ, y i = z / 2 ^ gy) →
      ∃ r r', (ieee64 sqrt sum dot).avlStats bc compiled argsort (fun i => fin (x i)) (fun i => fin (y i)) = .ok r ∧
        (binary64 sqrt' sum' dot').avlStats bc compiled (fun v => argsort fun i => fin (v i)) x y = .ok r' ∧
        StatsRel r r' := by
  refine ⟨_, _, _, lower_float64 h, fun bc compiled argsort x y hn hN hg hx hy => ?_⟩
  have hx' := fun i => onGrid_of_multiple (hx i)
  have hy' := fun i => onGrid_of_multiple (hy i)
  obtain ⟨t, t', e, e', ht⟩ := avlTerms_relG h (by omega) (by omega) (by omega) compiled argsort hn hx' hy'
  exact ⟨_, _, avlStats_of_terms e, avlStats_of_terms e',
    (fast_relG h bc (by omega) (fun _ => hn) hN (by omega) (by omega) (by omega) (by omega) hx' hy' ht).1⟩

/-- C86 for the mergesort method, as far as it holds. -/
theorem C86_mergesort_partial (h : IsIeee64 sqrt sum dot) : ∃ sqrt' sum' dot', IsFloat64 sqrt' sum' dot' ∧
    ∀ {n N gx gy : ℕ} (bc : Bool) (ge : F64 → F64 → Bool) (argsort : (Fin n → F64) → Equiv.Perm (Fin n))
      {x y : Fin n → ℚ}, 0 < n → (bc = true → 3 < n) → n ≤ 2 ^ N → gx + gy + 5 * N ≤ 277 →
      (∀ i, ∃ z : ℤ, x i = z / 2 ^ gx) → (∀ i, ∃ z : ℤ, y i = z / 2 ^ gy) →
      ExRel StatsRel ((ieee64 sqrt sum dot).mergesortStats bc ge argsort (fun i => fin (x i)) (fun i => fin (y i)))
        ((binary64 sqrt' sum' dot').mergesortStats bc (fun a b => ge (fin a) (fin b))
          (fun v => argsort fun i => fin (v i)) x y) := by
  refine ⟨_, _, _, lower_float64 h, fun bc ge argsort x y hn0 hn hN hg hx hy => ?_⟩
  have hx' := fun i => onGrid_of_multiple (hx i)
  have hy' := fun i => onGrid_of_multiple (hy i)
  refine (mergesortTerms_relG h (by omega) (by omega) (by omega) ge argsort hx' hy').bind fun t t' ht => ExRel.pure ?_
  exact (fast_relG h bc hn0 hn hN (by omega) (by omega) (by omega) (by omega) hx' hy' ht).1

/-! ### C87: samples of moderate magnitude -/

/-- C87 for the naive method. -/
theorem C87_naive (h : IsIeee64 sqrt sum dot) : ∃ sqrt' sum' dot', IsFloat64 sqrt' sum' dot' ∧
    ∀ {n p q N gx gy Kx Ky : ℕ} (bc : Bool) {x : Fin n → Fin p → ℚ} {y : Fin n → Fin q → ℚ}, 0 < n →
      (bc = true → 3 < n) → n ≤ 2 ^ N → p ≤ 2 ^ N → q ≤ 2 ^ N → N ≤ 26 → gx + gy + 4 * N ≤ 301 →
      Kx + Ky + 6 * N ≤ 478 → Kx + Ky + gx + gy + 10 * N ≤ 703 → (∀ i k, Within gx Kx (x i k)) →
      (∀ i k, Within gy Ky (y i k)) →
      (ieee64 sqrt sum dot).naiveStats bc (fun i k => fin (x i k)) (fun i k => fin (y i k))
        = ((binary64 sqrt' sum' dot').naiveStats bc x y).fin := by
  refine ⟨_, _, _, lower_float64 h, ?_⟩
  intro n p q N gx gy Kx Ky bc x y hn0 hn hN hp hq hM h1 h2 h3 hx hy
  obtain ⟨hr, gX, gY⟩ := naive_relG h bc hn0 hn hN (gx := gx) (gy := gy) (by omega) (by omega) (by omega)
    (fun i k => (hx i k).grid) (fun i k => (hy i k).grid)
  have hb := naive_bd h bc hn0 hn hN hM hp hq (fun i k => (hx i k).bd) (fun i k => (hy i k).bd) (by omega) (by omega)
  exact stats_eq h bc (e := gx + gy + 4 * N + 208) hr gX gY hb (by omega) (by omega) (by omega) (by push_cast; omega)

/-- C87 for the AVL method. -/
theorem C87_avl (h : IsIeee64 sqrt sum dot) : ∃ sqrt' sum' dot', IsFloat64 sqrt' sum' dot' ∧
    ∀ {n N gx gy Kx Ky : ℕ} (bc compiled : Bool) (argsort : (Fin n → F64) → Equiv.Perm (Fin n)) {x y : Fin n → ℚ},
      3 < n → n ≤ 2 ^ N → N ≤ 26 → gx + gy + 5 * N ≤ 277 → Kx + Ky + 5 * N ≤ 470 → Kx + Ky + gx + gy + 9 * N ≤ 643 →
      (∀ i, Within gx Kx (x i)) → (∀ i, Within gy Ky (y i)) →
      ∃ r, (binary64 sqrt' sum' dot').avlStats bc compiled (fun v => argsort fun i => fin (v i)) x y = .ok r ∧
        (ieee64 sqrt sum dot).avlStats bc compiled argsort (fun i => fin (x i)) (fun i => fin (y i)) = .ok r.fin := by
  refine ⟨_, _, _, lower_float64 h, ?_⟩
  intro n N gx gy Kx Ky bc compiled argsort x y hn hN hM h1 h2 h3 hx hy
  obtain ⟨t, t', e, e', ht⟩ := avlTerms_relG h (gx := gx) (gy := gy) (by omega) (by omega) (by omega) compiled argsort hn
    (fun i => (hx i).grid) (fun i => (hy i).grid)
  obtain ⟨t'', e'', hb⟩ := avlTerms_bd h hN hM compiled argsort hn (fun i => (hx i).bd) (fun i => (hy i).bd) (by omega)
  obtain rfl := Except.ok.inj (e.symm.trans e'')
  obtain ⟨hr, gX, gY⟩ := fast_relG h bc (by omega) (fun _ => hn) hN (by omega) (by omega) (by omega) (by omega)
    (fun i => (hx i).grid) (fun i => (hy i).grid) ht
  have hb' := fast_bd h bc (by omega) (fun _ => hn) hN hM (fun i => (hx i).bd) (fun i => (hy i).bd) (by omega) (by omega) hb
  have key := stats_eq h bc (e := gx + gy + 5 * N + 260) hr gX gY hb' (by omega) (by omega) (by omega) (by push_cast; omega)
  refine ⟨_, avlStats_of_terms e', ?_⟩
  rw [avlStats_of_terms e, key]

/-- C87 for the mergesort method, with the comparison `>=`. -/
theorem C87_mergesort (h : IsIeee64 sqrt sum dot) : ∃ sqrt' sum' dot', IsFloat64 sqrt' sum' dot' ∧
    ∀ {n N gx gy Kx Ky : ℕ} (bc : Bool) {ge : F64 → F64 → Bool} (argsort : (Fin n → F64) → Equiv.Perm (Fin n))
      {x y : Fin n → ℚ}, (∀ a b : ℚ, ge (fin a) (fin b) = decide (b ≤ a)) → 0 < n → (bc = true → 3 < n) → n ≤ 2 ^ N →
      N ≤ 26 → gx + gy + 5 * N ≤ 277 → Kx + Ky + 5 * N ≤ 470 → Kx + Ky + gx + gy + 9 * N ≤ 643 →
      (∀ i, Within gx Kx (x i)) → (∀ i, Within gy Ky (y i)) →
      ∃ r, (binary64 sqrt' sum' dot').mergesortStats bc (fun a b => decide (b ≤ a))
          (fun v => argsort fun i => fin (v i)) x y = .ok r ∧
        (ieee64 sqrt sum dot).mergesortStats bc ge argsort (fun i => fin (x i)) (fun i => fin (y i)) = .ok r.fin := by
  refine ⟨_, _, _, lower_float64 h, ?_⟩
  intro n N gx gy Kx Ky bc ge argsort x y hge hn0 hn hN hM h1 h2 h3 hx hy
  have hT := mergesortTerms_relG h (gx := gx) (gy := gy) (by omega) (by omega) (by omega) ge argsort
    (fun i => (hx i).grid) (fun i => (hy i).grid)
  obtain ⟨t, e, hb⟩ := mergesortTerms_bd h hn0 hN hM hge argsort (fun i => (hx i).bd) (fun i => (hy i).bd) (by omega)
  rw [e] at hT
  rw [show (fun a b : ℚ => ge (fin a) (fin b)) = fun a b => decide (b ≤ a) from funext fun a => funext fun b => hge a b] at hT
  obtain ⟨t', e', ht⟩ := hT.ok_right
  obtain ⟨hr, gX, gY⟩ := fast_relG h bc hn0 hn hN (by omega) (by omega) (by omega) (by omega)
    (fun i => (hx i).grid) (fun i => (hy i).grid) ht
  have hb' := fast_bd h bc hn0 hn hN hM (fun i => (hx i).bd) (fun i => (hy i).bd) (by omega) (by omega) hb
  have key := stats_eq h bc (e := gx + gy + 5 * N + 260) hr gX gY hb' (by omega) (by omega) (by omega) (by push_cast; omega)
  refine ⟨_, mergesortStats_of_terms e', ?_⟩
  rw [mergesortStats_of_terms e, key]

/-- C87 for the energy distance and the statistic of the energy test, which do not need a quotient of two statistics. -/
theorem C87_energy (h : IsIeee64 sqrt sum dot) : ∃ sqrt' sum' dot', IsFloat64 sqrt' sum' dot' ∧
    ∀ {n m p N g K : ℕ} (s : EstStat) {x : Fin n → Fin p → ℚ} {y : Fin m → Fin p → ℚ}, 0 < n → 0 < m →
      (s = .u → 1 < n ∧ 1 < m) → n ≤ 2 ^ N → m ≤ 2 ^ N → p ≤ 2 ^ N → N ≤ 26 → g ≤ 537 → K + N ≤ 484 →
      (∀ i k, Within g K (x i k)) → (∀ i k, Within g K (y i k)) →
      (ieee64 sqrt sum dot).energyDistance s (fun i k => fin (x i k)) (fun i k => fin (y i k))
          = fin ((binary64 sqrt' sum' dot').energyDistance s x y) ∧
        (ieee64 sqrt sum dot).energyTestStatistic s (fun i k => fin (x i k)) (fun i k => fin (y i k))
          = fin ((binary64 sqrt' sum' dot').energyTestStatistic s x y) := by
  refine ⟨_, _, _, lower_float64 h, ?_⟩
  intro n m p N g K s x y hn0 hm0 hs hn hm hp hM h1 h2 hx hy
  constructor
  · have hr := energy_relG h s hn0 hm0 hs hn hm (g := g) (G := g + 2 * N + 104) (by omega) (by omega) le_rfl (by omega)
      (fun i k => (hx i k).grid) (fun i k => (hy i k).grid)
    exact hr.eq.resolve_right (not_not.2 (energy_bd h s hn0 hm0 hs hn hm hp hM (by omega) (by omega)
      (fun i k => (hx i k).bd) (fun i k => (hy i k).bd)).finite)
  · have hr := energyTest_relG h s hn0 hm0 hs hn hm (g := g) (G := g + 3 * N + 157) (by omega) (by omega) le_rfl (by omega)
      (fun i k => (hx i k).grid) (fun i k => (hy i k).grid)
    exact hr.eq.resolve_right (not_not.2 (energyTest_bd h s hn0 hm0 hs hn hm hp hM (by omega) (by omega)
      (fun i k => (hx i k).bd) (fun i k => (hy i k).bd)).finite)

/-! ### Accuracy with the range of `float64` -/

/-- C87: the error bounds of C72 hold for the naive method in `float64` with its range. -/
theorem C87_naive_accuracy (h : IsIeee64 sqrt sum dot) {N gx gy Kx Ky : ℕ} {x : Fin n → Fin p → ℚ} {y : Fin n → Fin q → ℚ}
    (hn : 0 < n) (hN : n ≤ 2 ^ N) (hp : p ≤ 2 ^ N) (hq : q ≤ 2 ^ N) (hN' : N ≤ 25) (hg : gx + gy + 4 * N ≤ 301)
    (hK : Kx + Ky + 6 * N ≤ 478) (hgK : Kx + Ky + gx + gy + 10 * N ≤ 703) (hx : ∀ i k, Within gx Kx (x i k))
    (hy : ∀ i k, Within gy Ky (y i k)) {A B : ℝ} (hA : ∀ i j, realDist x i j ≤ A) (hB : ∀ i j, realDist y i j ≤ B) :
    ∃ c vx vy : ℚ,
      ((ieee64 sqrt sum dot).naiveStats false (fun i k => fin (x i k)) (fun i k => fin (y i k))).cov = fin c ∧
      ((ieee64 sqrt sum dot).naiveStats false (fun i k => fin (x i k)) (fun i k => fin (y i k))).varX = fin vx ∧
      ((ieee64 sqrt sum dot).naiveStats false (fun i k => fin (x i k)) (fun i k => fin (y i k))).varY = fin vy ∧
      |(c : ℝ) - Spec.dcovSqr (realDist x) (realDist y)| ≤ 8 * (n ^ 2 + 4 * n + max p q + 16 : ℕ) * A * B / 2 ^ 53 ∧
      |(vx : ℝ) - Spec.dcovSqr (realDist x) (realDist x)| ≤ 8 * (n ^ 2 + 4 * n + max p q + 16 : ℕ) * A * A / 2 ^ 53 ∧
      |(vy : ℝ) - Spec.dcovSqr (realDist y) (realDist y)| ≤ 8 * (n ^ 2 + 4 * n + max p q + 16 : ℕ) * B * B / 2 ^ 53 := by
  obtain ⟨sqrt', sum', dot', h', key⟩ := C87_naive h
  have e := key false hn (by simp) hN hp hq (by omega) hg hK hgK hx hy
  have h25 : 2 ^ N ≤ 2 ^ 25 := Nat.pow_le_pow_right (by norm_num) hN'
  have hK' : n ^ 2 + 4 * n + max p q + 16 ≤ 2 ^ 53 := by
    have h1 : n ^ 2 ≤ (2 ^ 25) ^ 2 := Nat.pow_le_pow_left (hN.trans h25) 2
    have h2 : max p q ≤ 2 ^ 25 := max_le (hp.trans h25) (hq.trans h25)
    have h3 := hN.trans h25
    norm_num at h1 h2 h3 ⊢
    omega
  obtain ⟨e1, e2, e3⟩ := C72_naive_accuracy_partial h' hn x y hA hB hK'
  rw [e]
  exact ⟨_, _, _, rfl, rfl, rfl, e1, e2, e3⟩

/-- C87: the error bounds of C73 hold for the AVL method in `float64` with its range. -/
theorem C87_avl_accuracy (h : IsIeee64 sqrt sum dot) (compiled : Bool) {argsort : (Fin n → F64) → Equiv.Perm (Fin n)}
    (hsort : ∀ v : Fin n → ℚ, Monotone fun i => v (argsort (fun i => fin (v i)) i)) {N gx gy Kx Ky : ℕ} {x y : Fin n → ℚ}
    (hn : 3 < n) (hN : n ≤ 2 ^ N) (hN' : N ≤ 26) (hg : gx + gy + 5 * N ≤ 277) (hK : Kx + Ky + 5 * N ≤ 470)
    (hgK : Kx + Ky + gx + gy + 9 * N ≤ 643) (hx : ∀ i, Within gx Kx (x i)) (hy : ∀ i, Within gy Ky (y i))
    (fx : ∀ i, round64 (x i) = x i) (fy : ∀ i, round64 (y i) = y i) {X Y : ℚ} (hX : ∀ i, |x i| ≤ X) (hY : ∀ i, |y i| ≤ Y) :
    ∃ (r : Arith.StatsSqr F64) (c vx vy : ℚ),
      (ieee64 sqrt sum dot).avlStats false compiled argsort (fun i => fin (x i)) (fun i => fin (y i)) = .ok r ∧
      r.cov = fin c ∧ r.varX = fin vx ∧ r.varY = fin vy ∧
      |(c : ℝ) - Spec.dcovSqr (realDist fun i (_ : Fin 1) => x i) (realDist fun i (_ : Fin 1) => y i)|
        ≤ 328 * (4 * n + 22) * (X * Y) / 2 ^ 53 ∧
      |(vx : ℝ) - Spec.dcovSqr (realDist fun i (_ : Fin 1) => x i) (realDist fun i (_ : Fin 1) => x i)|
        ≤ 328 * (4 * n + 22) * (X * X) / 2 ^ 53 ∧
      |(vy : ℝ) - Spec.dcovSqr (realDist fun i (_ : Fin 1) => y i) (realDist fun i (_ : Fin 1) => y i)|
        ≤ 328 * (4 * n + 22) * (Y * Y) / 2 ^ 53 := by
  obtain ⟨sqrt', sum', dot', h', key⟩ := C87_avl h
  obtain ⟨r, e, e'⟩ := key false compiled argsort hn hN hN' hg hK hgK hx hy
  have h26 := hN.trans (Nat.pow_le_pow_right (by norm_num) hN')
  obtain ⟨s, es, e1, e2, e3⟩ := C73_avl_accuracy h' hn compiled hsort fx fy hX hY (by norm_num at h26 ⊢; omega)
  obtain rfl := Except.ok.inj (e.symm.trans es)
  exact ⟨_, _, _, _, e', rfl, rfl, rfl, e1, e2, e3⟩

/-- C87: the error bounds of C73 hold for the mergesort method in `float64` with its range. -/
theorem C87_mergesort_accuracy (h : IsIeee64 sqrt sum dot) {ge : F64 → F64 → Bool}
    (hge : ∀ a b : ℚ, ge (fin a) (fin b) = decide (b ≤ a)) {argsort : (Fin n → F64) → Equiv.Perm (Fin n)}
    (hsort : ∀ v : Fin n → ℚ, Monotone fun i => v (argsort (fun i => fin (v i)) i)) {N gx gy Kx Ky : ℕ} {x y : Fin n → ℚ}
    (hn : 0 < n) (hN : n ≤ 2 ^ N) (hN' : N ≤ 26) (hg : gx + gy + 5 * N ≤ 277) (hK : Kx + Ky + 5 * N ≤ 470)
    (hgK : Kx + Ky + gx + gy + 9 * N ≤ 643) (hx : ∀ i, Within gx Kx (x i)) (hy : ∀ i, Within gy Ky (y i))
    {X Y : ℚ} (hX : ∀ i, |x i| ≤ X) (hY : ∀ i, |y i| ≤ Y) :
    ∃ (r : Arith.StatsSqr F64) (c vx vy : ℚ),
      (ieee64 sqrt sum dot).mergesortStats false ge argsort (fun i => fin (x i)) (fun i => fin (y i)) = .ok r ∧
      r.cov = fin c ∧ r.varX = fin vx ∧ r.varY = fin vy ∧
      |(c : ℝ) - Spec.dcovSqr (realDist fun i (_ : Fin 1) => x i) (realDist fun i (_ : Fin 1) => y i)|
        ≤ (64 * Nat.clog 2 n + 232) * (4 * n + 22) * (X * Y) / 2 ^ 53 ∧
      |(vx : ℝ) - Spec.dcovSqr (realDist fun i (_ : Fin 1) => x i) (realDist fun i (_ : Fin 1) => x i)|
        ≤ (64 * Nat.clog 2 n + 232) * (4 * n + 22) * (X * X) / 2 ^ 53 ∧
      |(vy : ℝ) - Spec.dcovSqr (realDist fun i (_ : Fin 1) => y i) (realDist fun i (_ : Fin 1) => y i)|
        ≤ (64 * Nat.clog 2 n + 232) * (4 * n + 22) * (Y * Y) / 2 ^ 53 := by
  obtain ⟨sqrt', sum', dot', h', key⟩ := C87_mergesort h
  obtain ⟨r, e, e'⟩ := key false argsort hge hn (by simp) hN hN' hg hK hgK hx hy
  have h26 := hN.trans (Nat.pow_le_pow_right (by norm_num) hN')
  obtain ⟨s, es, e1, e2, e3⟩ := C73_mergesort_accuracy h' hn hsort hX hY (by norm_num at h26 ⊢; omega)
  obtain rfl := Except.ok.inj (e.symm.trans es)
  exact ⟨_, _, _, _, e', rfl, rfl, rfl, e1, e2, e3⟩

/-- C87: the error bounds of C80 hold in `float64` with its range. -/
theorem C87_energy_accuracy (h : IsIeee64 sqrt sum dot) {N g K : ℕ} {x : Fin n → Fin p → ℚ} {y : Fin m → Fin p → ℚ}
    (hn0 : 0 < n) (hm0 : 0 < m) (hn : n ≤ 2 ^ N) (hm : m ≤ 2 ^ N) (hp : p ≤ 2 ^ N) (hN : N ≤ 26) (hg : g ≤ 537)
    (hK : K + N ≤ 484) (hx : ∀ i k, Within g K (x i k)) (hy : ∀ i k, Within g K (y i k)) {D : ℝ}
    (hxx : ∀ i j, Spec.dist 1 (toReal x i) (toReal x j) ≤ D) (hyy : ∀ i j, Spec.dist 1 (toReal y i) (toReal y j) ≤ D)
    (hxy : ∀ i j, Spec.dist 1 (toReal x i) (toReal y j) ≤ D) :
    ∃ e t : ℚ, (ieee64 sqrt sum dot).energyDistance .v (fun i k => fin (x i k)) (fun i k => fin (y i k)) = fin e ∧
      (ieee64 sqrt sum dot).energyTestStatistic .v (fun i k => fin (x i k)) (fun i k => fin (y i k)) = fin t ∧
      |(e : ℝ) - Spec.energyV 1 (toReal x) (toReal y)| ≤ 8 * (max n m ^ 2 + p + 10 : ℕ) * D / 2 ^ 53 ∧
      |(t : ℝ) - n * m / (n + m) * Spec.energyV 1 (toReal x) (toReal y)|
        ≤ 8 * (max n m ^ 2 + p + 15 : ℕ) * (n * m / (n + m) * D) / 2 ^ 53 := by
  obtain ⟨sqrt', sum', dot', h', key⟩ := C87_energy h
  obtain ⟨e1, e2⟩ := key .v hn0 hm0 (by simp) hn hm hp hN hg hK hx hy
  have h26 : 2 ^ N ≤ 2 ^ 26 := Nat.pow_le_pow_right (by norm_num) hN
  have hK' : max n m ^ 2 + p + 15 ≤ 2 ^ 53 := by
    have h1 : max n m ^ 2 ≤ (2 ^ 26) ^ 2 := Nat.pow_le_pow_left (max_le (hn.trans h26) (hm.trans h26)) 2
    have h2 := hp.trans h26
    norm_num at h1 h2 ⊢
    omega
  obtain ⟨a1, a2⟩ := C80_accuracy_v h' x y hxx hyy hxy hK' hn0 hm0
  exact ⟨_, _, e1, e2, a1, a2⟩

/-! ### Cases -/

theorem within_small {a : ℚ} (h : a ∈ ([0, 1, 2, 4, 1 / 2, -3] : List ℚ)) : Within 88 139 a := by
  refine within_of_float (g := 36) ?_ ?_ ?_
  · revert a
    decide +kernel
  · revert a
    decide +kernel
  · revert a
    decide +kernel

/-- `C87_naive`: four observations of dimension one, where the bounds admit a million observations. -/
example : ∃ sqrt' sum' dot', IsFloat64 sqrt' sum' dot' ∧
    (ieee64 sqrtSeq sumSeq dotSeq).naiveStats true (fun i (_ : Fin 1) => fin ((![0, 1, 2, 4] : Fin 4 → ℚ) i))
        (fun i (_ : Fin 1) => fin ((![1 / 2, 4, -3, 0] : Fin 4 → ℚ) i))
      = ((binary64 sqrt' sum' dot').naiveStats true (fun i (_ : Fin 1) => (![0, 1, 2, 4] : Fin 4 → ℚ) i)
          (fun i (_ : Fin 1) => (![1 / 2, 4, -3, 0] : Fin 4 → ℚ) i)).fin := by
  obtain ⟨s, t, u, h, key⟩ := C87_naive ieee64_seq
  exact ⟨s, t, u, h, key (N := 20) (gx := 88) (gy := 88) (Kx := 139) (Ky := 139) true (by norm_num) (by norm_num)
    (by norm_num) (by norm_num) (by norm_num) (by norm_num) (by norm_num) (by norm_num) (by norm_num)
    (fun i _ => within_small (by fin_cases i <;> simp)) (fun i _ => within_small (by fin_cases i <;> simp))⟩

/-- `C87_avl`. -/
example : ∃ sqrt' sum' dot', IsFloat64 sqrt' sum' dot' ∧ ∃ r,
    (binary64 sqrt' sum' dot').avlStats true true (fun _ => Equiv.refl _) (![0, 1, 2, 4] : Fin 4 → ℚ) ![1 / 2, 4, -3, 0]
        = .ok r ∧
      (ieee64 sqrtSeq sumSeq dotSeq).avlStats true true (fun _ => Equiv.refl _)
        (fun i => fin ((![0, 1, 2, 4] : Fin 4 → ℚ) i)) (fun i => fin ((![1 / 2, 4, -3, 0] : Fin 4 → ℚ) i))
        = .ok r.fin := by
  obtain ⟨s, t, u, h, key⟩ := C87_avl ieee64_seq
  exact ⟨s, t, u, h, key (n := 4) (N := 20) (gx := 88) (gy := 88) (Kx := 139) (Ky := 139) true true (fun _ => Equiv.refl _)
    (x := ![0, 1, 2, 4]) (y := ![1 / 2, 4, -3, 0]) (by norm_num) (by norm_num) (by norm_num) (by norm_num) (by norm_num) (by norm_num)
    (fun i => within_small (by fin_cases i <;> simp)) (fun i => within_small (by fin_cases i <;> simp))⟩

/-- The comparison of `float64` numbers meets the hypothesis of `C87_mergesort`. -/
example : ∃ sqrt' sum' dot', IsFloat64 sqrt' sum' dot' ∧ ∃ r,
    (binary64 sqrt' sum' dot').mergesortStats true (fun a b => decide (b ≤ a)) (fun _ => Equiv.refl _)
        (![0, 1, 2, 4] : Fin 4 → ℚ) ![1 / 2, 4, -3, 0] = .ok r ∧
      (ieee64 sqrtSeq sumSeq dotSeq).mergesortStats true (fun a b => F64.lt b a || F64.eq a b) (fun _ => Equiv.refl _)
        (fun i => fin ((![0, 1, 2, 4] : Fin 4 → ℚ) i)) (fun i => fin ((![1 / 2, 4, -3, 0] : Fin 4 → ℚ) i))
        = .ok r.fin := by
  obtain ⟨s, t, u, h, key⟩ := C87_mergesort ieee64_seq
  exact ⟨s, t, u, h, key (n := 4) (N := 20) (gx := 88) (gy := 88) (Kx := 139) (Ky := 139) true
    (ge := fun a b => F64.lt b a || F64.eq a b) (fun _ => Equiv.refl _) (x := ![0, 1, 2, 4]) (y := ![1 / 2, 4, -3, 0])
    (fun a b => by simp [F64.lt, F64.eq, le_iff_lt_or_eq, eq_comm (a := b)]) (by norm_num) (by norm_num)
    (by norm_num) (by norm_num) (by norm_num) (by norm_num) (by norm_num)
    (fun i => within_small (by fin_cases i <;> simp)) (fun i => within_small (by fin_cases i <;> simp))⟩

/-- `C87_energy`. -/
example : ∃ sqrt' sum' dot', IsFloat64 sqrt' sum' dot' ∧
    (ieee64 sqrtSeq sumSeq dotSeq).energyTestStatistic .u (fun i (_ : Fin 1) => fin ((![0, 1, 2, 4] : Fin 4 → ℚ) i))
        (fun i (_ : Fin 1) => fin ((![1 / 2, -3] : Fin 2 → ℚ) i))
      = fin ((binary64 sqrt' sum' dot').energyTestStatistic .u (fun i (_ : Fin 1) => (![0, 1, 2, 4] : Fin 4 → ℚ) i)
          (fun i (_ : Fin 1) => (![1 / 2, -3] : Fin 2 → ℚ) i)) := by
  obtain ⟨s, t, u, h, key⟩ := C87_energy ieee64_seq
  exact ⟨s, t, u, h, (key (N := 20) (g := 88) (K := 139) .u (by norm_num) (by norm_num) (by norm_num) (by norm_num)
    (by norm_num) (by norm_num) (by norm_num) (by norm_num) (by norm_num)
    (fun i _ => within_small (by fin_cases i <;> simp)) (fun i _ => within_small (by fin_cases i <;> simp))).2⟩

/-- `C87_avl_accuracy`: with sorted samples the identity is a possible result of `argsort`. -/
example {argsort : (Fin 4 → F64) → Equiv.Perm (Fin 4)}
    (hsort : ∀ v : Fin 4 → ℚ, Monotone fun i => v (argsort (fun i => fin (v i)) i)) :
    ∃ (r : Arith.StatsSqr F64) (c : ℚ),
      (ieee64 sqrtSeq sumSeq dotSeq).avlStats false true argsort (fun i => fin ((![0, 1, 2, 4] : Fin 4 → ℚ) i))
        (fun i => fin ((![1 / 2, 4, -3, 0] : Fin 4 → ℚ) i)) = .ok r ∧ r.cov = fin c ∧
      |(c : ℝ) - Spec.dcovSqr (realDist fun i (_ : Fin 1) => (![0, 1, 2, 4] : Fin 4 → ℚ) i)
        (realDist fun i (_ : Fin 1) => (![1 / 2, 4, -3, 0] : Fin 4 → ℚ) i)|
        ≤ 328 * (4 * (4 : ℕ) + 22) * ((4 : ℚ) * (4 : ℚ)) / 2 ^ 53 := by
  obtain ⟨r, c, _, _, h1, h2, -, -, h3, -⟩ := C87_avl_accuracy (N := 20) (gx := 88) (gy := 88) (Kx := 139) (Ky := 139)
    ieee64_seq true hsort (x := ![0, 1, 2, 4]) (y := ![1 / 2, 4, -3, 0]) (X := 4) (Y := 4)
    (by norm_num) (by norm_num) (by norm_num) (by norm_num) (by norm_num) (by norm_num)
    (fun i => within_small (by fin_cases i <;> simp)) (fun i => within_small (by fin_cases i <;> simp))
    (by decide +kernel) (by decide +kernel) (by decide +kernel) (by decide +kernel)
  exact ⟨r, c, h1, h2, h3⟩

/-- `C86_naive_partial`: samples with observations of any magnitude. -/
example : ∃ sqrt' sum' dot', IsFloat64 sqrt' sum' dot' ∧
    StatsRel ((ieee64 sqrtSeq sumSeq dotSeq).naiveStats false (fun i (_ : Fin 1) => fin ((![0, 2 ^ 900] : Fin 2 → ℚ) i))
        (fun i (_ : Fin 1) => fin ((![0, 1 / 2] : Fin 2 → ℚ) i)))
      ((binary64 sqrt' sum' dot').naiveStats false (fun i (_ : Fin 1) => (![0, 2 ^ 900] : Fin 2 → ℚ) i)
        (fun i (_ : Fin 1) => (![0, 1 / 2] : Fin 2 → ℚ) i)) := by
  obtain ⟨s, t, u, h, key⟩ := C86_naive_partial ieee64_seq
  refine ⟨s, t, u, h, key (N := 20) (gx := 1) (gy := 1) false (by norm_num) (by norm_num) (by norm_num) (by norm_num) ?_ ?_⟩
  · intro i _
    fin_cases i
    · exact ⟨0, by simp⟩
    · exact ⟨2 ^ 901, by decide +kernel⟩
  · intro i _
    fin_cases i
    · exact ⟨0, by simp⟩
    · exact ⟨1, by norm_num⟩

end Dcor.Props

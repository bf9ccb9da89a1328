/-
Properties of `float64` rounding, sums, scalar products and square roots that do not depend on the order of the
operations.
-/
import Verif.Proofs.Binary64
import Mathlib.Data.Int.Log
import Mathlib.Analysis.SpecialFunctions.Sqrt

namespace Dcor

/-! ### Rounding -/

/-- A rounded number is an integer of 53 bits times a power of two. -/
theorem round64_form (q : ℚ) : ∃ m k : ℤ, |m| ≤ 2 ^ 53 ∧ round64 q = m * 2 ^ k := by
  have pos : ∀ q : ℚ, 0 < q → ∃ m k : ℤ, |m| ≤ 2 ^ 53 ∧ round64 q = m * 2 ^ k := by
    intro q hq
    obtain ⟨k, h1, h2⟩ := exists_expo hq
    refine ⟨rneQ (q * 2 ^ k), -k, ?_, round64_eq hq h1 h2⟩
    have e : rneQ ((2 : ℚ) ^ 53) = 2 ^ 53 := by
      have := rneQ_int (2 ^ 53)
      rwa [Int.cast_pow, Int.cast_ofNat] at this
    have u := rneQ_mono h2.le
    have e0 : rneQ 0 = 0 := by exact_mod_cast rneQ_int 0
    have l := rneQ_mono (p := 0) (q := q * 2 ^ k) (by positivity)
    rw [e] at u
    rw [e0] at l
    rw [abs_of_nonneg l]
    exact u
  rcases lt_trichotomy q 0 with h | h | h
  · obtain ⟨m, k, hm, e⟩ := pos (-q) (by linarith)
    refine ⟨-m, k, by rwa [abs_neg], ?_⟩
    rw [round64_neg] at e
    push_cast
    linarith
  · exact ⟨0, 0, by norm_num, by rw [h, round64_zero]; simp⟩
  · exact pos q h

theorem round64_fixed {m k : ℤ} (hm : |m| ≤ 2 ^ 53) : round64 ((m : ℚ) * 2 ^ k) = m * 2 ^ k := by
  rw [mul_comm, round64_scale, round64_int m hm]

/-- Rounding a rounded number changes nothing. -/
theorem round64_idem (q : ℚ) : round64 (round64 q) = round64 q := by
  obtain ⟨m, k, hm, e⟩ := round64_form q
  rw [e, round64_fixed hm]

theorem round64_pos {q : ℚ} (hq : 0 < q) : 0 < round64 q := by
  have h := abs_le.1 (round64_err q)
  rw [abs_of_pos hq] at h
  have : q / 2 ^ 53 < q := div_lt_self hq (by norm_num)
  linarith [h.1]

theorem round64_neg_of_neg {q : ℚ} (hq : q < 0) : round64 q < 0 := by
  have := round64_pos (q := -q) (by linarith)
  rw [round64_neg] at this
  linarith

theorem round64_eq_zero {q : ℚ} : round64 q = 0 ↔ q = 0 := by
  constructor
  · intro h
    rcases lt_trichotomy q 0 with h0 | h0 | h0
    · exact absurd h (round64_neg_of_neg h0).ne
    · exact h0
    · exact absurd h (round64_pos h0).ne'
  · rintro rfl
    exact round64_zero

theorem round64_abs (q : ℚ) : round64 |q| = |round64 q| := by
  rcases le_total 0 q with h | h
  · rw [abs_of_nonneg h, abs_of_nonneg (round64_nonneg h)]
  · rw [abs_of_nonpos h, round64_neg, abs_of_nonpos]
    have := round64_nonneg (q := -q) (by linarith)
    rw [round64_neg] at this
    linarith

/-! ### Lists with at most one nonzero element -/

/-- The products that are not zero. -/
def nzProd (l : List (ℚ × ℚ)) : List ℚ := (l.map fun p => p.1 * p.2).filter fun a => a ≠ 0

theorem nzProd_append (l l' : List (ℚ × ℚ)) : nzProd (l ++ l') = nzProd l ++ nzProd l' := by
  simp [nzProd]

theorem nzProd_cons (a b : ℚ) (l : List (ℚ × ℚ)) :
    nzProd ((a, b) :: l) = (if a * b ≠ 0 then [a * b] else []) ++ nzProd l := by
  unfold nzProd
  rw [List.map_cons, List.filter_cons]
  simp only [decide_eq_true_eq]
  split_ifs <;> rfl

theorem append_eq_single {α : Type} {l l' : List α} {a : α} (h : l ++ l' = [a]) :
    (l = [a] ∧ l' = []) ∨ (l = [] ∧ l' = [a]) := by
  cases l with
  | nil => right; exact ⟨rfl, h⟩
  | cons b l =>
    left
    simp only [List.cons_append, List.cons.injEq, List.append_eq_nil_iff] at h
    obtain ⟨rfl, rfl, rfl⟩ := h
    exact ⟨rfl, rfl⟩

theorem DotsTo.nz {l : List (ℚ × ℚ)} {r : ℚ} (h : DotsTo l r) :
    (nzProd l = [] → r = 0) ∧ ∀ v, nzProd l = [v] → r = round64 v := by
  induction h with
  | nil => exact ⟨fun _ => rfl, fun v hv => by simp [nzProd] at hv⟩
  | single a b =>
    rw [nzProd_cons]
    constructor
    · intro h
      split_ifs at h with hc
      · simp at h
      · rw [not_not.1 hc, round64_zero]
    · intro v h
      split_ifs at h with hc
      · simp [nzProd] at h
        rw [h]
      · simp [nzProd] at h
  | @fma a b l c _ _ ih =>
    rw [nzProd_cons]
    constructor
    · intro h
      rw [List.append_eq_nil_iff] at h
      rw [ih.1 h.2, add_zero]
      split_ifs at h with hc
      · simp at h
      · rw [not_not.1 hc, round64_zero]
    · intro v h
      rcases append_eq_single h with ⟨h1, h2⟩ | ⟨h1, h2⟩
      · split_ifs at h1 with hc
        · rw [ih.1 h2, add_zero]
          simp at h1
          rw [h1]
      · split_ifs at h1 with hc
        · rw [not_not.1 hc, zero_add, ih.2 v h2, round64_idem]
  | @add l l' a b _ _ _ _ ih1 ih2 =>
    rw [nzProd_append]
    constructor
    · intro h
      rw [List.append_eq_nil_iff] at h
      rw [ih1.1 h.1, ih2.1 h.2, add_zero, round64_zero]
    · intro v h
      rcases append_eq_single h with ⟨h1, h2⟩ | ⟨h1, h2⟩
      · rw [ih1.2 v h1, ih2.1 h2, add_zero, round64_idem]
      · rw [ih1.1 h1, ih2.2 v h2, zero_add, round64_idem]
  | @perm l l' a _ hp ih =>
    have hp' : (nzProd l).Perm (nzProd l') := (hp.map _).filter _
    constructor
    · intro h
      rw [h] at hp'
      exact ih.1 (List.perm_nil.1 hp')
    · intro v h
      rw [h] at hp'
      exact ih.2 v (List.perm_singleton.1 hp')

theorem SumsTo.zero {l : List ℚ} {r : ℚ} (h : SumsTo l r) : (∀ a ∈ l, a = 0) → r = 0 := by
  induction h with
  | nil => exact fun _ => rfl
  | single a => intro h; exact h a (by simp)
  | add _ _ _ _ ih1 ih2 =>
    intro h
    rw [ih1 fun a ha => h a (by simp [ha]), ih2 fun a ha => h a (by simp [ha]), add_zero, round64_zero]
  | perm _ hp ih => intro h; exact ih fun a ha => h a (hp.mem_iff.1 ha)

theorem DotsTo.zero {l : List (ℚ × ℚ)} {r : ℚ} (h : DotsTo l r) (h0 : ∀ p ∈ l, p.1 * p.2 = 0) : r = 0 := by
  apply h.nz.1
  unfold nzProd
  rw [List.filter_eq_nil_iff]
  intro a ha
  obtain ⟨p, hp, rfl⟩ := List.mem_map.1 ha
  simp [h0 p hp]

/-! ### Scaling by powers of two -/

theorem SumsTo.scale {l : List ℚ} {r : ℚ} (j : ℤ) (h : SumsTo l r) : SumsTo (l.map fun a => 2 ^ j * a) (2 ^ j * r) := by
  induction h with
  | nil => simpa using SumsTo.nil
  | single a => exact SumsTo.single _
  | @add l l' a b hl hl' _ _ ih1 ih2 =>
    rw [List.map_append, ← round64_scale, mul_add]
    exact SumsTo.add (by simpa using hl) (by simpa using hl') ih1 ih2
  | perm _ hp ih => exact ih.perm (hp.map _)

theorem DotsTo.scale {l : List (ℚ × ℚ)} {r : ℚ} (i j : ℤ) (h : DotsTo l r) :
    DotsTo (l.map fun p => (2 ^ i * p.1, 2 ^ j * p.2)) (2 ^ (i + j) * r) := by
  have e : ∀ a b : ℚ, 2 ^ (i + j) * (a * b) = 2 ^ i * a * (2 ^ j * b) := fun a b => by
    rw [zpow_add₀ (by norm_num)]; ring
  induction h with
  | nil => simpa using DotsTo.nil
  | single a b =>
    rw [← round64_scale, e]
    exact DotsTo.single _ _
  | @fma a b l c hl _ ih =>
    rw [← round64_scale, mul_add, e]
    exact DotsTo.fma _ _ (by simpa using hl) ih
  | @add l l' a b hl hl' _ _ ih1 ih2 =>
    rw [List.map_append, ← round64_scale, mul_add]
    exact DotsTo.add (by simpa using hl) (by simpa using hl') ih1 ih2
  | perm _ hp ih => exact ih.perm (hp.map _)

/-! ### Square roots -/

/-- The square root has a relative error of at most `2 ^ -53`. -/
theorem SqrtTo.err {q r : ℚ} (h : SqrtTo q r) : |(r : ℝ) - Real.sqrt q| ≤ Real.sqrt q / 2 ^ 53 := by
  rcases h with ⟨rfl, rfl⟩ | ⟨h0, k, m, h1, h2, rfl, h3, h4⟩
  · simp
  have hP : (0 : ℝ) < 2 ^ k := by positivity
  have e4 : ((4 : ℝ)) ^ k = 2 ^ k * 2 ^ k := by
    rw [← mul_zpow]; norm_num
  have hq : (0 : ℝ) ≤ q := by exact_mod_cast h0.le
  set s : ℝ := Real.sqrt q * 2 ^ k with hs
  have hs0 : 0 ≤ s := by positivity
  have hss : s * s = (q : ℝ) * 4 ^ k := by
    rw [hs, e4]
    linear_combination (2 ^ k * 2 ^ k) * Real.mul_self_sqrt hq
  have g1 : (2 : ℝ) ^ 104 ≤ s * s := by
    have := (Rat.cast_le (K := ℝ)).2 h1
    push_cast at this
    rw [hss]
    norm_num at this ⊢
    exact this
  have g3 : (2 * (m : ℝ) - 1) ^ 2 ≤ 4 * (s * s) := by
    have := (Rat.cast_le (K := ℝ)).2 h3
    push_cast at this
    rw [hss]
    exact this
  have g4 : 4 * (s * s) ≤ (2 * (m : ℝ) + 1) ^ 2 := by
    have := (Rat.cast_le (K := ℝ)).2 h4
    push_cast at this
    rw [hss]
    exact this
  have hm0 : (0 : ℝ) ≤ m := by positivity
  have u0 : (2 : ℝ) ^ 52 ≤ s := by
    by_contra hc
    nlinarith
  have u1 : 2 * (m : ℝ) - 1 ≤ 2 * s := by
    by_contra hc
    nlinarith
  have u2 : 2 * s ≤ 2 * (m : ℝ) + 1 := by
    by_contra hc
    nlinarith
  have e : ((((m : ℚ) * 2 ^ (-k) : ℚ)) : ℝ) - Real.sqrt q = (m - s) * 2 ^ (-k) := by
    rw [hs, sub_mul, mul_assoc, ← zpow_add₀ (by norm_num)]
    push_cast
    simp
  have e' : Real.sqrt q = s * 2 ^ (-k) := by
    rw [hs, mul_assoc, ← zpow_add₀ (by norm_num)]
    simp
  rw [e, abs_mul, abs_of_pos (show (0 : ℝ) < 2 ^ (-k) by positivity), e', mul_div_right_comm]
  apply mul_le_mul_of_nonneg_right _ (by positivity)
  rw [abs_le]
  constructor
  · rw [neg_le, le_div_iff₀ (by norm_num)]
    nlinarith
  · rw [le_div_iff₀ (by norm_num)]
    nlinarith

theorem SqrtTo.nonneg {q r : ℚ} (h : SqrtTo q r) : 0 ≤ r := by
  rcases h with ⟨_, rfl⟩ | ⟨_, k, m, _, _, rfl, _⟩
  · exact le_rfl
  · positivity

theorem SqrtTo.eq_zero {q r : ℚ} (h : SqrtTo q r) : r = 0 ↔ q = 0 := by
  have he := h.err
  have hq : 0 ≤ q := by
    rcases h with ⟨rfl, _⟩ | ⟨h0, _⟩
    · exact le_rfl
    · exact h0.le
  constructor
  · rintro rfl
    rw [Rat.cast_zero, zero_sub, abs_neg, abs_of_nonneg (Real.sqrt_nonneg _)] at he
    have : Real.sqrt q ≤ 0 := by
      by_contra hc
      have : Real.sqrt q / 2 ^ 53 < Real.sqrt q := div_lt_self (by linarith) (by norm_num)
      linarith
    have := (Real.sqrt_eq_zero (by exact_mod_cast hq)).1 (le_antisymm this (Real.sqrt_nonneg _))
    exact_mod_cast this
  · rintro rfl
    simp at he
    exact_mod_cast he

theorem SqrtTo.scale {q r : ℚ} (j : ℤ) (h : SqrtTo q r) : SqrtTo (4 ^ j * q) (2 ^ j * r) := by
  rcases h with ⟨rfl, rfl⟩ | ⟨h0, k, m, h1, h2, rfl, h3, h4⟩
  · exact Or.inl ⟨by simp, by simp⟩
  have e : (4 : ℚ) ^ j * q * 4 ^ (k - j) = q * 4 ^ k := by
    rw [zpow_sub₀ (by norm_num)]
    field_simp
  refine Or.inr ⟨by positivity, k - j, m, by rwa [e], by rwa [e], ?_, by rwa [e], by rwa [e]⟩
  rw [neg_sub, sub_eq_add_neg, zpow_add₀ (by norm_num)]
  ring

/-- The exponent in `SqrtTo` is unique. -/
theorem expo4_unique {q : ℚ} {k j : ℤ} (hk1 : 2 ^ 104 ≤ q * 4 ^ k) (hk2 : q * 4 ^ k < 2 ^ 106)
    (hj1 : 2 ^ 104 ≤ q * 4 ^ j) (hj2 : q * 4 ^ j < 2 ^ 106) : k = j := by
  have hq : 0 < q := by
    by_contra hc
    have : q * 4 ^ k ≤ 0 := mul_nonpos_of_nonpos_of_nonneg (by linarith) (by positivity)
    norm_num at hk1
    linarith
  have key : ∀ {k j : ℤ}, 2 ^ 104 ≤ q * 4 ^ k → q * 4 ^ j < 2 ^ 106 → j ≤ k := by
    intro k j h1 h2
    by_contra hlt
    have h3 : (4 : ℚ) ^ (k + 1) ≤ 4 ^ j := zpow_le_zpow_right₀ (by norm_num) (by omega)
    have h4 : q * 4 ^ (k + 1) ≤ q * 4 ^ j := mul_le_mul_of_nonneg_left h3 hq.le
    rw [zpow_add_one₀ (by norm_num)] at h4
    norm_num at h1 h2
    linarith
  exact le_antisymm (key hj1 hk2) (key hk1 hj2)

/-- The square root of the rounded square of a `float64` number is its absolute value. -/
theorem SqrtTo.round_square {v r : ℚ} (hv : round64 v = v) (h : SqrtTo (round64 (v * v)) r) : r = |v| := by
  have pos : ∀ v : ℚ, 0 < v → round64 v = v → ∀ r, SqrtTo (round64 (v * v)) r → r = v := by
    intro v h0 hv r h
    obtain ⟨k, h1, h2⟩ := exists_expo h0
    have hM := round64_eq h0 h1 h2
    rw [hv] at hM
    have hP : (0 : ℚ) < 2 ^ k := by positivity
    have hM2 : v * 2 ^ k = (rneQ (v * 2 ^ k) : ℤ) := by
      conv_lhs => rw [hM]
      rw [mul_assoc, ← zpow_add₀ (by norm_num)]
      simp
    generalize rneQ (v * 2 ^ k) = M at hM2
    have hs := h.scale k
    have e4 : ((4 : ℚ)) ^ k = 2 ^ k * 2 ^ k := by
      rw [← mul_zpow]; norm_num
    have e5 : (4 : ℚ) ^ k * round64 (v * v) = round64 ((M : ℚ) * M) := by
      rw [← hM2, e4, mul_assoc, ← round64_scale, ← round64_scale]
      congr 1
      ring
    rw [e5] at hs
    rw [hM2] at h1 h2
    have m1 : (2 : ℤ) ^ 52 ≤ M := by exact_mod_cast h1
    have m2 : M < (2 : ℤ) ^ 53 := by exact_mod_cast h2
    suffices 2 ^ k * r = M by
      rw [← hM2, mul_comm] at this
      exact mul_right_cancel₀ hP.ne' this
    generalize 2 ^ k * r = r at hs
    clear hM hM2 e5 hv h h0 e4 hP
    set q := round64 ((M : ℚ) * M) with hq
    have herr := abs_le.1 (round64_err ((M : ℚ) * M))
    rw [abs_of_nonneg (mul_self_nonneg _), ← hq] at herr
    have m3 : (M : ℚ) ≤ 2 ^ 53 - 1 := by
      have : M ≤ 2 ^ 53 - 1 := by omega
      exact_mod_cast this
    have mm : (M : ℚ) * M ≤ (2 ^ 53 - 1) * M := by
      apply mul_le_mul_of_nonneg_right m3
      norm_num at h1
      linarith
    have b1 : (2 : ℚ) ^ 104 ≤ q := by
      rcases m1.eq_or_lt with e | e
      · rw [hq, ← e]
        have := round64_fixed (m := 1) (k := 104) (by norm_num)
        norm_num at this ⊢
        rw [this]
      · have : (2 : ℚ) ^ 52 + 1 ≤ M := by
          have : (2 : ℤ) ^ 52 + 1 ≤ M := by omega
          exact_mod_cast this
        norm_num at this herr mm ⊢
        nlinarith
    have b2 : q < 2 ^ 106 := by
      norm_num at mm herr m3 ⊢
      nlinarith
    rcases hs with ⟨h0, _⟩ | ⟨h0, k, m, g1, g2, rfl, g3, g4⟩
    · norm_num at b1
      linarith
    have hk : k = 0 := expo4_unique g1 g2 (by simpa using b1) (by simpa using b2)
    subst hk
    simp only [zpow_zero, mul_one, neg_zero] at *
    have hm0 : (0 : ℚ) ≤ m := by positivity
    have c1 : (2 * (M : ℚ) - 1) ^ 2 < 4 * q := by
      norm_num at mm herr h1 ⊢
      nlinarith
    have c2 : 4 * q < (2 * (M : ℚ) + 1) ^ 2 := by
      norm_num at mm herr h1 ⊢
      nlinarith
    have d1 : (m : ℚ) < M + 1 := by
      norm_num at h1
      by_contra hc
      nlinarith
    have d2 : (M : ℚ) < m + 1 := by
      norm_num at h1
      by_contra hc
      nlinarith
    have d1' : (m : ℤ) < M + 1 := by exact_mod_cast d1
    have d2' : M < (m : ℤ) + 1 := by exact_mod_cast d2
    have : (m : ℤ) = M := by omega
    exact_mod_cast this
  rcases lt_trichotomy v 0 with h0 | rfl | h0
  · rw [abs_of_neg h0]
    apply pos (-v) (by linarith) (by rw [round64_neg, hv]) r
    rwa [neg_mul_neg]
  · rw [mul_zero, round64_zero] at h
    rw [abs_zero]
    exact h.eq_zero.2 rfl
  · rw [abs_of_pos h0]
    exact pos v h0 hv r h

/-! ### Results are `float64` numbers -/

theorem SumsTo.isFloat {l : List ℚ} {r : ℚ} (h : SumsTo l r) : (∀ a ∈ l, round64 a = a) → round64 r = r := by
  induction h with
  | nil => exact fun _ => round64_zero
  | single a => intro h; exact h a (by simp)
  | add _ _ _ _ _ _ => intro _; exact round64_idem _
  | perm _ hp ih => intro h; exact ih fun a ha => h a (hp.mem_iff.1 ha)

theorem SqrtTo.isFloat {q r : ℚ} (h : SqrtTo q r) : round64 r = r := by
  rcases h with ⟨_, rfl⟩ | ⟨_, k, m, _, h2, rfl, h3, _⟩
  · exact round64_zero
  have hm : (m : ℤ) ≤ 2 ^ 53 := by
    by_contra hc
    have : (2 : ℚ) ^ 53 + 1 ≤ m := by
      have : (2 : ℤ) ^ 53 + 1 ≤ m := by omega
      exact_mod_cast this
    have h4 : (2 * ((2 : ℚ) ^ 53 + 1) - 1) ^ 2 ≤ (2 * (m : ℚ) - 1) ^ 2 :=
      pow_le_pow_left₀ (by norm_num) (by linarith) 2
    norm_num at h2 h4
    linarith
  have := round64_fixed (m := m) (k := -k) (by rwa [abs_of_nonneg (by positivity)])
  exact_mod_cast this

end Dcor

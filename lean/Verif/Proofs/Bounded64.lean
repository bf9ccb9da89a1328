/-
`float64` operations on bounded numbers do not overflow.
-/
import Verif.Proofs.TransferFast

set_option exponentiation.threshold 1100

namespace Dcor

open F64

/-- Rounding does not cross a number of the format. -/
theorem round64_le_float {w : ℕ} (hw : w ≤ 2 ^ 53) {K : ℤ} {q : ℚ} (h : |q| ≤ w * 2 ^ K) : |round64 q| ≤ w * 2 ^ K := by
  rw [← round64_abs]
  have hq := abs_nonneg q
  generalize |q| = q at h hq
  rcases hq.eq_or_lt with rfl | hq
  · rw [round64_zero]; positivity
  obtain ⟨k, h1, h2⟩ := exists_expo hq
  have hwq : (w : ℚ) ≤ 2 ^ 53 := by exact_mod_cast hw
  have hK : q * 2 ^ k ≤ w * 2 ^ (K + k) := by
    rw [zpow_add₀ (by norm_num), ← mul_assoc]
    exact mul_le_mul_of_nonneg_right h (by positivity)
  rw [round64_eq hq h1 h2]
  have fin : (rneQ (q * 2 ^ k) : ℚ) ≤ w * 2 ^ (K + k) → (rneQ (q * 2 ^ k) : ℚ) * 2 ^ (-k) ≤ w * 2 ^ K := by
    intro h
    calc _ ≤ w * 2 ^ (K + k) * (2 : ℚ) ^ (-k) := mul_le_mul_of_nonneg_right h (by positivity)
      _ = w * 2 ^ K := by
        rw [mul_assoc, ← zpow_add₀ (by norm_num), add_neg_cancel_right]
  apply fin
  by_cases hk : 0 ≤ K + k
  · obtain ⟨j, hj⟩ := Int.eq_ofNat_of_zero_le hk
    rw [hj, zpow_natCast] at hK ⊢
    have e : ((w * 2 ^ j : ℕ) : ℚ) = w * 2 ^ j := by push_cast; rfl
    have := rneQ_mono hK
    rw [← e, show (((w * 2 ^ j : ℕ) : ℕ) : ℚ) = (((w * 2 ^ j : ℕ) : ℤ) : ℚ) by push_cast; rfl, rneQ_int] at this
    have h3 : (rneQ (q * 2 ^ k) : ℚ) ≤ (((w * 2 ^ j : ℕ) : ℤ) : ℚ) := by exact_mod_cast this
    push_cast at h3
    exact h3
  · have h3 : (2 : ℚ) ^ (K + k) ≤ 1 / 2 := by
      calc (2 : ℚ) ^ (K + k) ≤ 2 ^ (-1 : ℤ) := zpow_le_zpow_right₀ (by norm_num) (by omega)
        _ = 1 / 2 := by norm_num
    have h4 : (w : ℚ) * 2 ^ (K + k) ≤ 2 ^ 52 := by
      calc (w : ℚ) * 2 ^ (K + k) ≤ 2 ^ 53 * (1 / 2) := mul_le_mul hwq h3 (by positivity) (by positivity)
        _ = 2 ^ 52 := by norm_num
    have h5 : q * 2 ^ k = 2 ^ 52 := le_antisymm (hK.trans h4) h1
    have h6 : rneQ ((2 : ℚ) ^ 52) = 2 ^ 52 := by
      have := rneQ_int (2 ^ 52)
      rwa [Int.cast_pow, Int.cast_ofNat] at this
    rw [h5] at hK ⊢
    rw [h6]
    push_cast
    exact hK

theorem roundTiny_le {q : ℚ} (h : |q| < 1 / 2 ^ 1022) : |F64.roundTiny q| ≤ 1 / 2 ^ 1022 := by
  obtain ⟨z, hz, e⟩ := F64.roundTiny_eq q
  have h1 : |q| * 2 ^ 1074 ≤ ((2 ^ 52 : ℤ) : ℚ) := by
    have := mul_le_mul_of_nonneg_right h.le (by positivity : (0 : ℚ) ≤ 2 ^ 1074)
    refine this.trans (le_of_eq ?_)
    rw [Int.cast_pow, Int.cast_ofNat, show (2 : ℚ) ^ 1074 = 2 ^ 1022 * 2 ^ 52 by rw [← pow_add], ← mul_assoc,
      one_div_mul_cancel (by positivity), one_mul]
  have h2 := rneQ_mono h1
  have h0 := rneQ_mono (show ((0 : ℤ) : ℚ) ≤ |q| * 2 ^ 1074 by rw [Int.cast_zero]; positivity)
  rw [rneQ_int, ← hz] at h2 h0
  have h3 : |F64.roundTiny q| = (z : ℚ) / 2 ^ 1074 := by
    have : (0 : ℚ) ≤ (z : ℚ) / 2 ^ 1074 := div_nonneg (by exact_mod_cast h0) (by positivity)
    rw [e]
    split_ifs
    · rw [abs_neg, abs_of_nonneg this]
    · rw [abs_of_nonneg this]
  rw [h3, div_le_div_iff₀ (by positivity) (by positivity), one_mul]
  calc (z : ℚ) * 2 ^ 1022 ≤ 2 ^ 52 * 2 ^ 1022 := mul_le_mul_of_nonneg_right (by exact_mod_cast h2) (by positivity)
    _ = 2 ^ 1074 := by rw [← pow_add]

/-- `a` is finite and at most `w * 2 ^ K`. -/
def Bd (w K : ℕ) (a : F64) : Prop := ∃ q, a = fin q ∧ |q| ≤ w * 2 ^ K

theorem Bd.finite {w K : ℕ} {a : F64} (h : Bd w K a) : a.Finite := by
  obtain ⟨q, rfl, _⟩ := h
  trivial

theorem Bd.mono {w w' K K' : ℕ} {a : F64} (h : Bd w K a) (hw : w ≤ w') (hK : K ≤ K') : Bd w' K' a := by
  obtain ⟨q, rfl, hq⟩ := h
  refine ⟨q, rfl, hq.trans ?_⟩
  have h1 : (w : ℚ) ≤ w' := by exact_mod_cast hw
  have h2 : (2 : ℚ) ^ K ≤ 2 ^ K' := pow_le_pow_right₀ (by norm_num) hK
  exact mul_le_mul h1 h2 (by positivity) (by positivity)

/-- Put the factor into the power of two. -/
theorem Bd.one {w K M K' : ℕ} {a : F64} (h : Bd w K a) (hw : w ≤ 2 ^ M) (hK : K + M ≤ K') : Bd 1 K' a := by
  obtain ⟨q, rfl, hq⟩ := h
  refine Bd.mono (w := 1) (K := K + M) ⟨q, rfl, hq.trans ?_⟩ le_rfl hK
  have h1 : (w : ℚ) ≤ 2 ^ M := by exact_mod_cast hw
  rw [Nat.cast_one, one_mul, pow_add, mul_comm]
  exact mul_le_mul_of_nonneg_left h1 (by positivity)

theorem bd_round {w K : ℕ} (hw : w ≤ 2 ^ 53) (hK : K ≤ 970) {q : ℚ} (h : |q| ≤ w * 2 ^ K) : Bd w K (F64.round q) := by
  by_cases h0 : q = 0
  · subst h0
    refine ⟨0, by decide +kernel, ?_⟩
    rw [abs_zero]
    positivity
  have hw1 : 1 ≤ w := by
    rcases Nat.eq_zero_or_pos w with rfl | h1
    · rw [Nat.cast_zero, zero_mul] at h
      exact absurd (abs_nonpos_iff.1 h) h0
    · exact h1
  have key : ∀ r : ℚ, |r| ≤ w * 2 ^ K → ¬ 2 ^ 1024 ≤ |r| := by
    intro r hr h2
    have h3 : (w : ℚ) ≤ 2 ^ 53 := by exact_mod_cast hw
    have h4 : (2 : ℚ) ^ K ≤ 2 ^ 970 := pow_le_pow_right₀ (by norm_num) hK
    have h5 : (w : ℚ) * 2 ^ K ≤ 2 ^ 53 * 2 ^ 970 := mul_le_mul h3 h4 (by positivity) (by positivity)
    rw [← pow_add] at h5
    have h6 : (2 : ℚ) ^ (53 + 970) < 2 ^ 1024 := pow_lt_pow_right₀ (by norm_num) (by norm_num)
    exact absurd (h2.trans (hr.trans h5)) (not_le.2 h6)
  unfold F64.round
  by_cases ht : |q| < 1 / 2 ^ 1022
  · rw [if_pos ht]
    have : |F64.roundTiny q| ≤ w * 2 ^ K := by
      refine (roundTiny_le ht).trans ?_
      have h1 : (1 : ℚ) ≤ w * 2 ^ K := by
        have h1 : (1 : ℚ) ≤ w := by exact_mod_cast hw1
        have h2 : (1 : ℚ) ≤ 2 ^ K := one_le_pow₀ (by norm_num)
        nlinarith
      refine le_trans ?_ h1
      rw [div_le_one (by positivity)]
      exact one_le_pow₀ (by norm_num)
    exact ⟨_, if_neg (key _ this), this⟩
  · rw [if_neg ht]
    have := round64_le_float hw (K := K) (by rwa [zpow_natCast])
    rw [zpow_natCast] at this
    exact ⟨_, if_neg (key _ this), this⟩

theorem Bd.neg {w K : ℕ} {a : F64} (h : Bd w K a) : Bd w K (F64.neg a) := by
  obtain ⟨q, rfl, hq⟩ := h
  exact ⟨-q, rfl, by rwa [abs_neg]⟩

theorem Bd.add {w w' K : ℕ} {a b : F64} (h : Bd w K a) (h' : Bd w' K b) (hw : w + w' ≤ 2 ^ 53) (hK : K ≤ 970) :
    Bd (w + w') K (F64.add a b) := by
  obtain ⟨q, rfl, hq⟩ := h
  obtain ⟨r, rfl, hr⟩ := h'
  refine bd_round hw hK ((abs_add_le _ _).trans ?_)
  rw [Nat.cast_add, add_mul]
  exact add_le_add hq hr

theorem Bd.sub {w w' K : ℕ} {a b : F64} (h : Bd w K a) (h' : Bd w' K b) (hw : w + w' ≤ 2 ^ 53) (hK : K ≤ 970) :
    Bd (w + w') K (F64.sub a b) := h.add h'.neg hw hK

theorem Bd.mul {w w' K K' : ℕ} {a b : F64} (h : Bd w K a) (h' : Bd w' K' b) (hw : w * w' ≤ 2 ^ 53) (hK : K + K' ≤ 970) :
    Bd (w * w') (K + K') (F64.mul a b) := by
  obtain ⟨q, rfl, hq⟩ := h
  obtain ⟨r, rfl, hr⟩ := h'
  refine bd_round hw hK ?_
  rw [abs_mul, Nat.cast_mul, pow_add]
  calc |q| * |r| ≤ (w * 2 ^ K) * (w' * 2 ^ K') := mul_le_mul hq hr (abs_nonneg _) (by positivity)
    _ = _ := by ring

/-- Multiplication with an integer. -/
theorem Bd.imul {K M K' : ℕ} {a : F64} (h : Bd 1 K a) {k : ℤ} (hk : |k| ≤ 2 ^ M) (hM : M ≤ 53) (hK : K + M ≤ K')
    (hK' : K' ≤ 970) : Bd 1 K' (F64.mul (F64.round (k : ℚ)) a) := by
  have hk' : k.natAbs ≤ 2 ^ M := by
    zify
    exact hk
  have hk2 : k.natAbs ≤ 2 ^ 53 := hk'.trans (Nat.pow_le_pow_right (by norm_num) hM)
  have h1 : Bd k.natAbs 0 (F64.round (k : ℚ)) := by
    refine bd_round hk2 (by norm_num) ?_
    rw [pow_zero, mul_one, Nat.cast_natAbs, Int.cast_abs]
  have := h1.mul h (by rwa [mul_one]) (by omega)
  rw [mul_one, zero_add] at this
  exact this.one hk' hK

/-- Division by an integer. -/
theorem Bd.idiv {w K M : ℕ} {a : F64} (h : Bd w K a) {k : ℤ} (hk0 : k ≠ 0) (hk : |k| ≤ 2 ^ M) (hM : M ≤ 1023)
    (hw : w ≤ 2 ^ 53) (hK : K ≤ 970) : Bd w K (F64.div a (F64.round (k : ℚ))) := by
  obtain ⟨q, rfl, hq⟩ := h
  rw [RelG.ofInt_eq hk hM]
  have h1 : 1 ≤ |round64 (k : ℚ)| := by
    have : (2 : ℚ) ^ (0 : ℤ) ≤ |round64 (k : ℚ)| := by
      apply round64_ge_pow
      rw [zpow_zero]
      have : (1 : ℤ) ≤ |k| := Int.one_le_abs hk0
      exact_mod_cast this
    rwa [zpow_zero] at this
  have h2 : round64 (k : ℚ) ≠ 0 := fun e => by rw [e, abs_zero] at h1; norm_num at h1
  show Bd w K (if round64 (k : ℚ) = 0 then _ else F64.round (q / round64 k))
  rw [if_neg h2]
  refine bd_round hw hK ?_
  rw [abs_div]
  exact (div_le_self (abs_nonneg _) h1).trans hq

theorem Bd.sums {w K : ℕ} (hK : K ≤ 970) {l : List F64} {r : F64} (h : Sums l r) :
    (∀ a ∈ l, Bd w K a) → l.length * w ≤ 2 ^ 53 → Bd (l.length * w) K r := by
  induction h with
  | nil =>
    intro _ _
    exact ⟨0, rfl, by simp⟩
  | single a =>
    intro h _
    simpa using h a (by simp)
  | add _ _ _ _ ih ih' =>
    intro h hw
    rw [List.length_append, add_mul] at hw ⊢
    exact (ih (fun a ha => h a (by simp [ha])) (by omega)).add (ih' (fun a ha => h a (by simp [ha])) (by omega)) hw hK
  | perm _ hp ih =>
    intro h hw
    rw [← hp.length_eq] at hw ⊢
    exact ih (fun a ha => h a (hp.mem_iff.1 ha)) hw

theorem Bd.fma {w w' v K K' : ℕ} {a b c : F64} (h : Bd w K a) (h' : Bd w' K' b) (hc : Bd v (K + K') c)
    (hw : w * w' + v ≤ 2 ^ 53) (hK : K + K' ≤ 970) : Bd (w * w' + v) (K + K') (F64.fma a b c) := by
  obtain ⟨q, rfl, hq⟩ := h
  obtain ⟨r, rfl, hr⟩ := h'
  obtain ⟨s, rfl, hs⟩ := hc
  refine bd_round hw hK ((abs_add_le _ _).trans ?_)
  rw [abs_mul, Nat.cast_add, Nat.cast_mul, add_mul]
  refine add_le_add ?_ hs
  rw [pow_add]
  calc |q| * |r| ≤ (w * 2 ^ K) * (w' * 2 ^ K') := mul_le_mul hq hr (abs_nonneg _) (by positivity)
    _ = _ := by ring

theorem Bd.dots {w w' K K' : ℕ} (hK : K + K' ≤ 970) {l : List (F64 × F64)} {r : F64} (h : Dots l r) :
    (∀ p ∈ l, Bd w K p.1 ∧ Bd w' K' p.2) → l.length * (w * w') ≤ 2 ^ 53 → Bd (l.length * (w * w')) (K + K') r := by
  induction h with
  | nil =>
    intro _ _
    exact ⟨0, rfl, by simp⟩
  | single a b =>
    intro h hw
    have := h (a, b) (by simp)
    rw [List.length_singleton, one_mul] at hw ⊢
    exact this.1.mul this.2 hw hK
  | fma a b _ _ ih =>
    intro h hw
    have := h (a, b) (by simp)
    rw [List.length_cons, add_mul, one_mul, add_comm] at hw ⊢
    exact this.1.fma this.2 (ih (fun p hp => h p (by simp [hp])) (by omega)) hw hK
  | add _ _ _ _ ih ih' =>
    intro h hw
    rw [List.length_append, add_mul] at hw ⊢
    exact (ih (fun a ha => h a (by simp [ha])) (by omega)).add (ih' (fun a ha => h a (by simp [ha])) (by omega)) hw hK
  | perm _ hp ih =>
    intro h hw
    rw [← hp.length_eq] at hw ⊢
    exact ih (fun a ha => h a (hp.mem_iff.1 ha)) hw

theorem Bd.sqrt {K : ℕ} {a r : F64} (h : Bd 1 (2 * K) a) (ha : NN a) (hr : F64.IsSqrt a r) : Bd 1 (K + 1) r := by
  obtain ⟨q, rfl, hq⟩ := h
  have hq0 : 0 ≤ q := ha
  change if q < 0 then r = nan else ∃ s, SqrtTo q s ∧ r = fin s at hr
  rw [if_neg (not_lt.2 hq0)] at hr
  obtain ⟨s, hs, rfl⟩ := hr
  refine ⟨s, rfl, ?_⟩
  rw [abs_of_nonneg hs.nonneg, Nat.cast_one, one_mul]
  have := hs.le_pow (K := K) (by
    rw [Nat.cast_one, one_mul, abs_of_nonneg hq0, pow_mul] at hq
    rw [zpow_natCast]
    norm_num at hq
    exact hq)
  exact_mod_cast this

end Dcor

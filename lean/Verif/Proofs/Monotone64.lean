/-
Rounding and square roots are monotone.
-/
import Verif.Proofs.Range64
import Verif.Proofs.Bounded64

set_option exponentiation.threshold 1100

namespace Dcor

theorem round64_mono {p q : ℚ} (h : p ≤ q) : round64 p ≤ round64 q := by
  have pos : ∀ {p q : ℚ}, 0 < p → p ≤ q → round64 p ≤ round64 q := by
    intro p q hp h
    have hq := hp.trans_le h
    obtain ⟨k, k1, k2⟩ := exists_expo hp
    obtain ⟨l, l1, l2⟩ := exists_expo hq
    rcases lt_trichotomy k l with hkl | rfl | hkl
    · exfalso
      have h3 : (2 : ℚ) ^ (k + 1) ≤ 2 ^ l := zpow_le_zpow_right₀ (by norm_num) (by omega)
      have h4 : p * 2 ^ (k + 1) ≤ q * 2 ^ l := mul_le_mul h h3 (by positivity) hq.le
      rw [zpow_add_one₀ (by norm_num)] at h4
      norm_num at k1 l2
      linarith
    · rw [round64_eq hp k1 k2, round64_eq hq l1 l2]
      have h1 : p * 2 ^ k ≤ q * 2 ^ k := mul_le_mul_of_nonneg_right h (by positivity)
      exact mul_le_mul_of_nonneg_right (by exact_mod_cast rneQ_mono h1) (by positivity)
    · have h1 : |p| ≤ (2 : ℚ) ^ (52 - l) := by
        rw [abs_of_pos hp]
        have h3 : (2 : ℚ) ^ (l + 1) ≤ 2 ^ k := zpow_le_zpow_right₀ (by norm_num) (by omega)
        have h4 : p * 2 ^ (l + 1) ≤ p * 2 ^ k := mul_le_mul_of_nonneg_left h3 hp.le
        rw [zpow_add_one₀ (by norm_num)] at h4
        rw [zpow_sub₀ (by norm_num), le_div_iff₀ (by positivity), show ((2 : ℚ) ^ (52 : ℤ)) = 2 ^ 52 from rfl]
        norm_num at k2 ⊢
        linarith
      have h2 : (2 : ℚ) ^ (52 - l) ≤ |q| := by
        rw [abs_of_pos hq, zpow_sub₀ (by norm_num), div_le_iff₀ (by positivity)]
        exact l1
      have h3 := (le_abs_self _).trans (round64_le_pow h1)
      have h4 := round64_ge_pow h2
      rw [abs_of_pos (round64_pos hq)] at h4
      exact h3.trans h4
  rcases lt_trichotomy p 0 with hp | rfl | hp
  · rcases lt_or_ge q 0 with hq | hq
    · have := pos (p := -q) (q := -p) (by linarith) (by linarith)
      rw [round64_neg, round64_neg] at this
      linarith
    · exact (round64_neg_of_neg hp).le.trans (round64_nonneg hq)
  · rw [round64_zero]
    exact round64_nonneg h
  · exact pos hp h

/-- A larger number has a larger square root. -/
theorem SqrtTo.mono {q q' r r' : ℚ} (h : SqrtTo q r) (h' : SqrtTo q' r') (hlt : q < q') : r ≤ r' := by
  rcases h with ⟨rfl, rfl⟩ | ⟨h0, k, m, h1, h2, rfl, h3, -⟩
  · exact h'.nonneg
  rcases h' with ⟨rfl, rfl⟩ | ⟨h0', k', m', h1', h2', rfl, -, h4'⟩
  · exact absurd (hlt.trans h0) (lt_irrefl _)
  have hk : k' ≤ k := by
    by_contra hc
    have h5 : (4 : ℚ) ^ (k + 1) ≤ 4 ^ k' := zpow_le_zpow_right₀ (by norm_num) (by omega)
    have h6 : q * 4 ^ (k + 1) ≤ q' * 4 ^ k' := mul_le_mul hlt.le h5 (by positivity) h0'.le
    rw [zpow_add_one₀ (by norm_num)] at h6
    norm_num at h1 h2'
    linarith
  rcases hk.lt_or_eq with hk | rfl
  · have hm : m ≤ 2 ^ 53 := by
      by_contra hc
      have h5 : ((2 ^ 53 + 1 : ℕ) : ℚ) ≤ (m : ℚ) := by exact_mod_cast not_le.1 hc
      have h6 : ((2 : ℚ) * ((2 ^ 53 + 1 : ℕ) : ℚ) - 1) ^ 2 ≤ (2 * (m : ℚ) - 1) ^ 2 :=
        pow_le_pow_left₀ (by norm_num) (by linarith) 2
      norm_num at h6 h2
      linarith
    have hm' : 2 ^ 52 ≤ m' := by
      by_contra hc
      have : (m' : ℚ) + 1 ≤ 2 ^ 52 := by exact_mod_cast not_le.1 hc
      have m0 : (0 : ℚ) ≤ m' := by positivity
      norm_num at this h1'
      nlinarith
    have h5 : (2 : ℚ) ^ (-k) * 2 ≤ 2 ^ (-k') := by
      rw [← zpow_add_one₀ (by norm_num)]
      exact zpow_le_zpow_right₀ (by norm_num) (by omega)
    calc (m : ℚ) * 2 ^ (-k) ≤ 2 ^ 53 * 2 ^ (-k) := mul_le_mul_of_nonneg_right (by exact_mod_cast hm) (by positivity)
      _ = 2 ^ 52 * (2 ^ (-k) * 2) := by ring
      _ ≤ 2 ^ 52 * 2 ^ (-k') := mul_le_mul_of_nonneg_left h5 (by positivity)
      _ ≤ m' * 2 ^ (-k') := mul_le_mul_of_nonneg_right (by exact_mod_cast hm') (by positivity)
  · refine mul_le_mul_of_nonneg_right ?_ (by positivity)
    have h5 : (2 * (m : ℚ) - 1) ^ 2 < (2 * (m' : ℚ) + 1) ^ 2 := by
      have : q * 4 ^ k' < q' * 4 ^ k' := mul_lt_mul_of_pos_right hlt (by positivity)
      linarith
    have m0 : (0 : ℚ) ≤ m' := by positivity
    have h6 : 2 * (m : ℚ) - 1 < 2 * (m' : ℚ) + 1 := lt_of_pow_lt_pow_left₀ 2 (by positivity) h5
    have h7 : (m : ℚ) < (m' + 1 : ℕ) := by push_cast; linarith
    have : m < m' + 1 := by exact_mod_cast h7
    exact_mod_cast Nat.lt_succ_iff.1 this

namespace F64

/-- The rounded number before the limit for the exponent is applied. -/
def roundNum (q : ℚ) : ℚ := if |q| < 1 / 2 ^ 1022 then roundTiny q else round64 q

theorem round_def (q : ℚ) : round q = if 2 ^ 1024 ≤ |roundNum q| then inf (decide (roundNum q < 0)) else fin (roundNum q) := rfl

theorem roundTiny_opposite (q : ℚ) : roundTiny (-q) = -roundTiny q := by
  obtain ⟨z, hz, e⟩ := roundTiny_eq q
  obtain ⟨z', hz', e'⟩ := roundTiny_eq (-q)
  rw [abs_neg, ← hz] at hz'
  rw [e, e', hz']
  rcases lt_trichotomy q 0 with h | h | h
  · rw [if_neg (by linarith), if_pos h, neg_neg]
  · subst h
    have : z = 0 := by
      rw [hz, abs_zero, zero_mul]
      decide +kernel
    rw [this]
    simp
  · rw [if_pos (by linarith), if_neg (by linarith)]

theorem roundNum_neg (q : ℚ) : roundNum (-q) = -roundNum q := by
  unfold roundNum
  rw [abs_neg, roundTiny_opposite, round64_neg]
  split_ifs <;> rfl

theorem roundNum_zero : roundNum 0 = 0 := by
  have := roundNum_neg 0
  rw [neg_zero] at this
  linarith

theorem roundTiny_mono {p q : ℚ} (hp : 0 ≤ p) (h : p ≤ q) : roundTiny p ≤ roundTiny q := by
  obtain ⟨z, hz, e⟩ := roundTiny_eq p
  obtain ⟨w, hw, e'⟩ := roundTiny_eq q
  rw [e, e', if_neg (not_lt.2 hp), if_neg (not_lt.2 (hp.trans h))]
  have : z ≤ w := by
    rw [hz, hw, abs_of_nonneg hp, abs_of_nonneg (hp.trans h)]
    exact rneQ_mono (mul_le_mul_of_nonneg_right h (by positivity))
  exact div_le_div_of_nonneg_right (by exact_mod_cast this) (by positivity)

theorem roundNum_mono {p q : ℚ} (h : p ≤ q) : roundNum p ≤ roundNum q := by
  have pos : ∀ {p q : ℚ}, 0 ≤ p → p ≤ q → roundNum p ≤ roundNum q := by
    intro p q hp h
    have hq := hp.trans h
    unfold roundNum
    split_ifs with h1 h2 h2
    · exact roundTiny_mono hp h
    · have h3 := (le_abs_self _).trans (roundTiny_le h1)
      have h4 : (2 : ℚ) ^ (-1022 : ℤ) ≤ |q| := by
        rw [zpow_neg, show (2 : ℚ) ^ (1022 : ℤ) = 2 ^ 1022 from rfl, ← one_div]
        exact not_lt.1 h2
      have h5 := round64_ge_pow h4
      rw [abs_of_nonneg (round64_nonneg hq), zpow_neg, show (2 : ℚ) ^ (1022 : ℤ) = 2 ^ 1022 from rfl, ← one_div] at h5
      exact h3.trans h5
    · rw [abs_of_nonneg hp] at h1
      rw [abs_of_nonneg hq] at h2
      exact absurd (h.trans_lt h2) h1
    · exact round64_mono h
  rcases lt_or_ge p 0 with hp | hp
  · rcases lt_or_ge q 0 with hq | hq
    · have := pos (p := -q) (q := -p) (by linarith) (by linarith)
      rw [roundNum_neg, roundNum_neg] at this
      linarith
    · have h1 := pos (p := 0) (q := -p) le_rfl (by linarith)
      have h2 := pos (p := 0) (q := q) le_rfl hq
      rw [roundNum_neg, roundNum_zero] at h1
      rw [roundNum_zero] at h2
      linarith
  · exact pos hp h

theorem roundNum_nonneg {q : ℚ} (h : 0 ≤ q) : 0 ≤ roundNum q := by
  have := roundNum_mono h
  rwa [roundNum_zero] at this

/-- A number of the format is not changed. -/
theorem roundNum_fixed {q : ℚ} (h : OnGrid 1074 q) (hq : round64 q = q) : roundNum q = q := by
  have key := round_eq (Or.inl h)
  rw [round_def, hq] at key
  split_ifs at key with h1 h2 h2
  · unfold roundNum at h1 ⊢
    split_ifs with h3
    · exfalso
      rw [if_pos h3] at h1
      have := h1.trans (roundTiny_le h3)
      norm_num at this
    · exact hq
  · exact F64.fin.inj key

/-- `a <= b`. -/
def le (a b : F64) : Prop := lt a b = true ∨ eq a b = true

theorem round_mono {p q : ℚ} (h : p ≤ q) : le (round p) (round q) := by
  have hm := roundNum_mono h
  rw [round_def, round_def]
  unfold le
  split_ifs with h1 h2 h2
  · rcases lt_or_ge (roundNum p) 0 with hp | hp
    · rcases lt_or_ge (roundNum q) 0 with hq | hq
      · right; simp [eq, hp, hq]
      · left; simp [lt, hp, not_lt.2 hq]
    · right; simp [eq, not_lt.2 hp, not_lt.2 (hp.trans hm)]
  · left
    have hp : roundNum p < 0 := by
      by_contra hc
      rw [abs_of_nonneg (not_lt.1 hc)] at h1
      rw [abs_of_nonneg ((not_lt.1 hc).trans hm)] at h2
      exact h2 (h1.trans hm)
    simp [lt, hp]
  · left
    have hq : ¬ roundNum q < 0 := by
      intro hc
      rw [abs_of_neg hc] at h2
      rw [abs_of_neg (hm.trans_lt hc)] at h1
      exact h1 (h2.trans (by linarith))
    simp [lt, hq]
  · rcases hm.lt_or_eq with h3 | h3
    · left; simp [lt, h3]
    · right; simp [eq, h3]

end F64

end Dcor

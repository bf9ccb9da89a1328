/-
Rounding to `float16`: the error, and the numbers that are not too large.
-/
import Verif.Proofs.Float
import Verif.Proofs.Float16

namespace Dcor

/-- A number rounded to 11 bits has 53 bits. -/
theorem round11_form (q : ℚ) : ∃ m k : ℤ, |m| ≤ 2 ^ 11 ∧ round11 q = m * 2 ^ k := by
  have pos : ∀ q : ℚ, 0 < q → ∃ m k : ℤ, |m| ≤ 2 ^ 11 ∧ round11 q = m * 2 ^ k := by
    intro q hq
    obtain ⟨k, h1, h2⟩ := exists_expo11 hq
    refine ⟨rneQ (q * 2 ^ k), -k, ?_, round11_eq hq h1 h2⟩
    have e : rneQ ((2 : ℚ) ^ 11) = 2 ^ 11 := by
      have := rneQ_int (2 ^ 11)
      rwa [Int.cast_pow, Int.cast_ofNat] at this
    have u := rneQ_mono h2.le
    have e0 : rneQ 0 = 0 := by exact_mod_cast rneQ_int 0
    have l := rneQ_mono (p := 0) (q := q * 2 ^ k) (by positivity)
    rw [e] at u
    rw [e0] at l
    rw [abs_of_nonneg l]
    exact u
  rcases lt_trichotomy q 0 with h | h | h
  · obtain ⟨m, k, hm, e⟩ := pos (-q) (by linarith)
    refine ⟨-m, k, by rwa [abs_neg], ?_⟩
    rw [round11_neg] at e
    push_cast
    linarith
  · exact ⟨0, 0, by norm_num, by rw [h, round11_zero]; norm_num⟩
  · exact pos q h

/-- What is below 65520 is not rounded to infinity. -/
theorem round11_lt {q : ℚ} (h0 : 0 < q) (hq : q < 65520) : round11 q < 2 ^ 16 := by
  rcases lt_or_ge q (2 ^ 15) with h | h
  · have := abs_le.1 (round11_err q)
    rw [abs_of_pos h0] at this
    have h1 : q / 2 ^ 11 ≤ q := div_le_self h0.le (by norm_num)
    have h2 := this.2
    norm_num at h ⊢
    linarith
  · rw [round11_eq (k := -5) h0 (by norm_num at *; linarith) (by norm_num at *; linarith)]
    have u := abs_le.1 (rneQ_err (q * 2 ^ (-5 : ℤ)))
    have hlt : (rneQ (q * 2 ^ (-5 : ℤ)) : ℚ) < 2048 := by
      have := u.2
      norm_num at this ⊢
      linarith
    norm_num at hlt ⊢
    linarith

namespace F16

open F64

theorem tiny_eq (q : ℚ) : ∃ z : ℤ, z = rneQ (|q| * 2 ^ 24) ∧
    roundTiny q = if q < 0 then -((z : ℚ) / 2 ^ 24) else (z : ℚ) / 2 ^ 24 := by
  have hd : (0 : ℚ) < q.den := by exact_mod_cast q.den_pos
  have e : (((q.num.natAbs * 2 ^ 24 : ℕ) : ℚ) / (q.den : ℚ)) = |q| * 2 ^ 24 := by
    have : |q| = (q.num.natAbs : ℚ) / q.den := by
      conv_lhs => rw [← Rat.num_div_den q]
      rw [abs_div, abs_of_pos hd, Nat.cast_natAbs, Int.cast_abs]
    rw [this]
    push_cast
    ring
  refine ⟨_, rfl, ?_⟩
  unfold roundTiny
  have := divEven_eq (q.num.natAbs * 2 ^ 24) q.den q.den_pos
  rw [e] at this
  rw [← this, Rat.mkRat_eq_div, Int.cast_natCast]
  norm_cast

theorem tiny_err (q : ℚ) : |roundTiny q - q| ≤ 1 / 2 ^ 25 := by
  obtain ⟨z, hz, e⟩ := tiny_eq q
  have h := abs_le.1 (rneQ_err (|q| * 2 ^ 24))
  rw [← hz] at h
  rw [e]
  split_ifs with hq
  · rw [abs_of_neg hq] at h
    have h1 := h.1
    have h2 := h.2
    refine abs_le.2 ⟨?_, ?_⟩ <;> norm_num at * <;> linarith
  · rw [abs_of_nonneg (not_lt.1 hq)] at h
    have h1 := h.1
    have h2 := h.2
    refine abs_le.2 ⟨?_, ?_⟩ <;> norm_num at * <;> linarith

/-- Numbers below 65520 are rounded with a relative error of `2 ^ -11` or an absolute one of `2 ^ -25`. -/
theorem round_close {q : ℚ} (h : |q| < 65520) : ∃ r, round q = fin r ∧ |r - q| ≤ |q| / 2 ^ 11 + 1 / 2 ^ 25 := by
  unfold round
  dsimp only
  split_ifs with h1 h2 h3
  · have := abs_le.1 (tiny_err q)
    have h4 := abs_lt.1 h1
    exfalso
    have : |roundTiny q| < 2 ^ 16 := abs_lt.2 ⟨by norm_num at *; linarith, by norm_num at *; linarith⟩
    exact absurd h2 (not_le.2 this)
  · exact ⟨_, rfl, (tiny_err q).trans (le_add_of_nonneg_left (by positivity))⟩
  · exfalso
    refine absurd h3 (not_le.2 ?_)
    rcases lt_trichotomy q 0 with hq | rfl | hq
    · have := round11_lt (q := -q) (by linarith) (by rwa [abs_of_neg hq] at h)
      rw [round11_neg] at this
      have e := abs_le.1 (round11_err q)
      rw [abs_of_neg hq] at e
      have hd : -q / 2 ^ 11 ≤ -q := div_le_self (by linarith) (by norm_num)
      rw [abs_of_nonpos (by linarith [e.2])]
      exact this
    · rw [round11_zero]
      norm_num
    · have := round11_lt hq (by rwa [abs_of_pos hq] at h)
      have e := abs_le.1 (round11_err q)
      rw [abs_of_pos hq] at e
      have hd : q / 2 ^ 11 ≤ q := div_le_self hq.le (by norm_num)
      rw [abs_of_nonneg (by linarith [e.1])]
      exact this
  · exact ⟨_, rfl, (round11_err q).trans (le_add_of_nonneg_right (by positivity))⟩

/-- Numbers from 65520 on become infinite. -/
theorem round_top {q : ℚ} (h : 65520 ≤ q) : round q = inf false := by
  have h0 : 0 ≤ q := by linarith
  have h1 : ¬ |q| < 1 / 2 ^ 14 := by
    rw [abs_of_nonneg h0]
    norm_num
    linarith
  have h2 := round11_large h
  have h3 : (0 : ℚ) < round11 q := lt_of_lt_of_le (by norm_num) h2
  unfold round
  simp only [if_neg h1, if_pos (h2.trans (le_abs_self _)), decide_eq_false (not_lt.2 h3.le)]

/-- The numbers of the format are numbers of `float64`. -/
theorem round64_of_round {q : ℚ} (h : round q = fin q) : round64 q = q := by
  unfold round at h
  dsimp only at h
  split_ifs at h with h1 h2 h3
  · injection h with h
    obtain ⟨z, hz, e⟩ := tiny_eq q
    have hs : |z| ≤ 2 ^ 53 := by
      have h5 := abs_le.1 (rneQ_err (|q| * 2 ^ 24))
      rw [← hz] at h5
      have h6 := abs_nonneg q
      have h7 : |(z : ℚ)| ≤ 2 ^ 53 := by
        refine abs_le.2 ⟨?_, ?_⟩
        · have := h5.1
          norm_num at this ⊢
          linarith
        · have := h5.2
          norm_num at this h1 ⊢
          linarith
      exact_mod_cast h7
    rw [h] at e
    split_ifs at e with hq
    · have e' : q = ((-z : ℤ) : ℚ) * 2 ^ (-24 : ℤ) := by
        conv_lhs => rw [e]
        push_cast
        norm_num
        ring
      rw [e']
      exact round64_fixed (by rwa [abs_neg])
    · have e' : q = (z : ℚ) * 2 ^ (-24 : ℤ) := by
        conv_lhs => rw [e]
        norm_num
        ring
      rw [e']
      exact round64_fixed hs
  · injection h with h
    obtain ⟨m, k, hm, e⟩ := round11_form q
    rw [h] at e
    rw [e]
    exact round64_fixed (hm.trans (by norm_num))

end F16

end Dcor

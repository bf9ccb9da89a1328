/-
The error of the quotients of the row-wise correlation in single precision.
-/
import Verif.Model.Float32Rowwise
import Verif.Proofs.Float
import Verif.Proofs.Round32
import Verif.Proofs.Sqrt64

namespace Dcor

/-- A bound on a product with a factor that is at least `B * (1 - 4 * δ)`. -/
theorem factor_bound32 {d t B k l δ : ℝ} (hδ : δ ≤ 1 / 2 ^ 10) (hB : 0 < B) (ht : B * (1 - 4 * δ) ≤ t) (h : |d * t| ≤ B * k)
    (hl0 : 0 ≤ l) (hl : k ≤ l * (1 - 4 * δ)) : |d| ≤ l := by
  have ht0 : 0 < t := lt_of_lt_of_le (mul_pos hB (by linarith)) ht
  rw [abs_mul, abs_of_pos ht0] at h
  by_contra hneg
  have h1 : l * t < |d| * t := mul_lt_mul_of_pos_right (not_le.1 hneg) ht0
  have h2 : l * (B * (1 - 4 * δ)) ≤ l * t := mul_le_mul_of_nonneg_left ht hl0
  have h3 : B * k ≤ B * (l * (1 - 4 * δ)) := mul_le_mul_of_nonneg_left hl hB.le
  have h4 : l * (B * (1 - 4 * δ)) = B * (l * (1 - 4 * δ)) := by ring
  linarith

theorem sqrt_near32 {a a' δ : ℝ} (h0 : 0 ≤ δ) (hδ : δ ≤ 1 / 2 ^ 10) (ha : 0 < a) (h : |a' - a| ≤ a * δ) :
    |√a' - √a| ≤ √a * δ := by
  have h1 := abs_le.1 h
  have hA : 0 < √a := Real.sqrt_pos.2 ha
  have hδ1 : δ ≤ 1 := hδ.trans (by norm_num)
  have hd : 0 ≤ a * δ := by positivity
  have hd2 : a * δ ^ 2 ≤ a * δ := by
    have : δ ^ 2 ≤ δ := by nlinarith
    gcongr
  have hd3 : 0 ≤ a * δ ^ 2 := by positivity
  have u : √a' ≤ √a * (1 + δ) := by
    rw [Real.sqrt_le_left (by positivity), mul_pow, Real.sq_sqrt ha.le]
    linarith
  have l : √a * (1 - δ) ≤ √a' := by
    apply Real.le_sqrt_of_sq_le
    rw [mul_pow, Real.sq_sqrt ha.le]
    linarith
  rw [abs_le]
  constructor <;> linarith

theorem sqrtClip32_close {sqrt : ℚ → ℚ} (hs : IsSqrt32 sqrt) {a δ : ℝ} {a' : ℚ} (h0 : 1 / 2 ^ 23 ≤ δ) (hδ : δ ≤ 1 / 2 ^ 10) (ha : 0 < a)
    (h : |(a' : ℝ) - a| ≤ a * δ) : |((binary32s sqrt).sqrtClip a' : ℝ) - √a| ≤ √a * (4 * δ) := by
  have hδ0 : 0 ≤ δ := le_trans (by norm_num) h0
  have ha0 : 0 ≤ a' := by
    have := abs_le.1 h
    have h2 : a * δ ≤ a * 1 := mul_le_mul_of_nonneg_left (hδ.trans (by norm_num)) ha.le
    have : (0 : ℝ) ≤ a' := by linarith
    exact_mod_cast this
  have e : (binary32s sqrt).sqrtClip a' = sqrt a' := by
    show sqrt (if decide (a' < round32 ((0 : ℤ) : ℚ)) = true then round32 ((0 : ℤ) : ℚ) else a') = _
    rw [Int.cast_zero, round32_zero, if_neg (by simpa using ha0)]
  rw [e]
  have hA : 0 < √a := Real.sqrt_pos.2 ha
  have h1 := abs_le.1 (sqrt_near32 hδ0 hδ ha h)
  have h2 := abs_le.1 (hs a' ha0)
  have h3 : √a * δ ≤ √a * 1 := mul_le_mul_of_nonneg_left (hδ.trans (by norm_num)) hA.le
  have h4 : √a * (1 / 2 ^ 23) ≤ √a * δ := mul_le_mul_of_nonneg_left h0 hA.le
  rw [abs_le]
  constructor <;> linarith

theorem round32_real (q : ℚ) : |((round32 q : ℚ) : ℝ) - q| ≤ |(q : ℝ)| / 2 ^ 24 := by
  have := (Rat.cast_le (K := ℝ)).2 (round32_err q)
  push_cast at this
  exact this

/-- The error of the quotient. -/
theorem rowQuotient32_close {sqrt : ℚ → ℚ} (hs : IsSqrt32 sqrt) {c a b δ : ℝ} {c' a' b' : ℚ} (h0 : 1 / 2 ^ 23 ≤ δ)
    (hδ : δ ≤ 1 / 2 ^ 10) (ha : 0 < a) (hb : 0 < b) (hc : |c| ≤ √a * √b) (ea : |(a' : ℝ) - a| ≤ a * δ)
    (eb : |(b' : ℝ) - b| ≤ b * δ) (ec : |(c' : ℝ) - c| ≤ √a * √b * δ) :
    |((binary32s sqrt).rowQuotient c' a' b' : ℝ) - c / (√a * √b)| ≤ 13 * δ := by
  have hδ0 : 0 ≤ δ := le_trans (by norm_num) h0
  have hs1 := sqrtClip32_close hs h0 hδ ha ea
  have ht1 := sqrtClip32_close hs h0 hδ hb eb
  have hA : 0 < √a := Real.sqrt_pos.2 ha
  have hB : 0 < √b := Real.sqrt_pos.2 hb
  have e : (binary32s sqrt).rowQuotient c' a' b'
      = round32 (round32 (c' / (binary32s sqrt).sqrtClip a') / (binary32s sqrt).sqrtClip b') := by
    unfold Arith.rowQuotient
    dsimp only
    rw [if_neg]
    · rfl
    · show ¬ (!decide (_ = _)) = true
      simp
  rw [e]
  generalize (binary32s sqrt).sqrtClip a' = s at *
  generalize (binary32s sqrt).sqrtClip b' = t at *
  generalize √a = A at *
  generalize √b = B at *
  have hs2 := abs_le.1 hs1
  have ht2 := abs_le.1 ht1
  have s1 : A * (1 - 4 * δ) ≤ s := by linarith
  have t1 : B * (1 - 4 * δ) ≤ t := by linarith
  have s0' : (0 : ℝ) < s := lt_of_lt_of_le (mul_pos hA (by linarith)) s1
  have t0' : (0 : ℝ) < t := lt_of_lt_of_le (mul_pos hB (by linarith)) t1
  obtain ⟨ρ, hρ⟩ : ∃ ρ, ρ = c / (A * B) := ⟨_, rfl⟩
  have hcρ : c = ρ * (A * B) := by
    rw [hρ, div_mul_cancel₀ _ (mul_pos hA hB).ne']
  have hρ1 : |ρ| ≤ 1 := by
    rw [hρ, abs_div, abs_of_pos (mul_pos hA hB)]
    exact div_le_one_of_le₀ hc (mul_pos hA hB).le
  rw [← hρ]
  have hBδ : B / 2 ^ 23 ≤ B * δ := by
    have := mul_le_mul_of_nonneg_left h0 hB.le
    linarith
  have hBδ1 : B * δ ≤ B * (1 / 2 ^ 10) := mul_le_mul_of_nonneg_left hδ hB.le
  have hδδ : δ * δ ≤ δ * (1 / 2 ^ 10) := mul_le_mul_of_nonneg_left hδ hδ0
  have hBδδ : B * (δ * δ) ≤ B * (δ * (1 / 2 ^ 10)) := mul_le_mul_of_nonneg_left hδδ hB.le
  -- the first quotient
  have p1 : |(c' / s : ℝ) - ρ * B| ≤ B * (6 * δ) := by
    refine factor_bound32 hδ hA s1 (k := B * (5 * δ)) ?_ (by positivity) (by nlinarith)
    have e : ((c' / s : ℝ) - ρ * B) * s = (c' - c) + ρ * (B * (A - s)) := by
      rw [hcρ]
      field_simp
      ring
    rw [e]
    have h1 : |ρ * (B * (A - s))| ≤ B * (A * (4 * δ)) := by
      rw [abs_mul, abs_mul, abs_of_pos hB, abs_sub_comm A]
      calc _ ≤ 1 * (B * (A * (4 * δ))) := by gcongr
        _ = _ := one_mul _
    have h2 := abs_add_le ((c' : ℝ) - c) (ρ * (B * (A - s)))
    have h3 : A * (B * (5 * δ)) = A * B * δ + B * (A * (4 * δ)) := by ring
    linarith
  have hρB : |ρ * B| ≤ B := by
    rw [abs_mul, abs_of_pos hB]
    calc _ ≤ 1 * B := by gcongr
      _ = _ := one_mul _
  have p2 : |(c' / s : ℝ)| ≤ B * (1 + 6 * δ) := by
    have := abs_le.1 p1
    have := abs_le.1 hρB
    rw [abs_le]
    constructor <;> linarith
  have hp := round32_real (c' / s)
  push_cast at hp
  generalize round32 (c' / s) = p at *
  have p4 : |(p : ℝ) - ρ * B| ≤ B * (7 * δ) := by
    have h1 := abs_sub_le (p : ℝ) (c' / s) (ρ * B)
    linarith
  -- the second quotient
  have q1 : |(p / t : ℝ) - ρ| ≤ 12 * δ := by
    refine factor_bound32 hδ hB t1 (k := 11 * δ) ?_ (by positivity) (by linarith)
    have e : ((p / t : ℝ) - ρ) * t = (p - ρ * B) + ρ * (B - t) := by
      field_simp
      ring
    rw [e]
    have h1 : |ρ * (B - t)| ≤ B * (4 * δ) := by
      rw [abs_mul, abs_sub_comm B]
      calc _ ≤ 1 * (B * (4 * δ)) := by gcongr
        _ = _ := one_mul _
    have h2 := abs_add_le ((p : ℝ) - ρ * B) (ρ * (B - t))
    linarith
  have q2 : |(p / t : ℝ)| ≤ 1 + 12 * δ := by
    have := abs_le.1 q1
    have := abs_le.1 hρ1
    rw [abs_le]
    constructor <;> linarith
  have hr := round32_real (p / t)
  push_cast at hr
  have h1 := abs_sub_le ((round32 (p / t) : ℚ) : ℝ) (p / t) ρ
  linarith

/-- The assumption on the square root can be met. -/
theorem sqrt64_single : IsSqrt32 sqrt64 := by
  intro q hq
  refine (sqrt64_spec q hq).err.trans ?_
  gcongr
  · norm_num
  · norm_num

end Dcor

/-
The quotients of the row-wise correlation in half precision.
-/
import Verif.Model.Float16Rowwise
import Verif.Proofs.Float
import Verif.Proofs.Round16Range
import Verif.Proofs.Sqrt64

namespace Dcor

open F64

theorem F64.not_nan_eq_self {a : F64} (h : a ≠ nan) : F64.eq a a = true := by
  cases a with
  | nan => exact absurd rfl h
  | inf s => cases s <;> rfl
  | fin q => simp [F64.eq]

/-- The quotient is never NaN. -/
theorem rowQuotientHalf_ne_nan (sqrt : F64 → F64) (c vx vy : F64) : (ieee16s sqrt).rowQuotient c vx vy ≠ nan := by
  have r0 : F16.round ((0 : ℤ) : ℚ) = fin 0 := by decide +kernel
  unfold Arith.rowQuotient
  dsimp only
  generalize (ieee16s sqrt).div ((ieee16s sqrt).div c ((ieee16s sqrt).sqrtClip vx)) ((ieee16s sqrt).sqrtClip vy) = q
  show (if (!F64.eq q q) = true then F16.round ((0 : ℤ) : ℚ) else q) ≠ nan
  rw [r0]
  cases q with
  | nan => simp [F64.eq]
  | inf s => cases s <;> simp [F64.eq]
  | fin q => simp [F64.eq]

theorem sqrtClipHalf_inf {sqrt : F64 → F64} (h : sqrt (inf false) = inf false) : (ieee16s sqrt).sqrtClip (inf false) = inf false := by
  have r0 : F16.round ((0 : ℤ) : ℚ) = fin 0 := by decide +kernel
  show sqrt (if F64.lt (inf false) (F16.round ((0 : ℤ) : ℚ)) = true then F16.round ((0 : ℤ) : ℚ) else inf false) = _
  rw [r0, if_neg (by decide)]
  exact h

/-- Zero or NaN divided by anything is zero or NaN. -/
theorem F16.div_zero_or_nan {a : F64} (h : a = fin 0 ∨ a = nan) (b : F64) : F16.div a b = fin 0 ∨ F16.div a b = nan := by
  rcases h with rfl | rfl
  · cases b with
    | nan => exact .inr rfl
    | inf s => exact .inl rfl
    | fin q =>
      by_cases hq : q = 0
      · right
        subst hq
        rfl
      · left
        show (if q = 0 then F64.div (fin 0) (fin q) else F16.round (0 / q)) = fin 0
        rw [if_neg hq, zero_div]
        decide +kernel
  · exact .inr rfl

theorem F16.div_inf (a : F64) : F16.div a (inf false) = fin 0 ∨ F16.div a (inf false) = nan := by
  cases a with
  | nan => exact .inr rfl
  | inf s => exact .inr rfl
  | fin q => exact .inl rfl

theorem rowQuotientHalf_zero {sqrt : F64 → F64} {c vx vy : F64}
    (h : (ieee16s sqrt).div ((ieee16s sqrt).div c ((ieee16s sqrt).sqrtClip vx)) ((ieee16s sqrt).sqrtClip vy) = fin 0 ∨
      (ieee16s sqrt).div ((ieee16s sqrt).div c ((ieee16s sqrt).sqrtClip vx)) ((ieee16s sqrt).sqrtClip vy) = nan) :
    (ieee16s sqrt).rowQuotient c vx vy = fin 0 := by
  have r0 : F16.round ((0 : ℤ) : ℚ) = fin 0 := by decide +kernel
  unfold Arith.rowQuotient
  dsimp only
  generalize (ieee16s sqrt).div ((ieee16s sqrt).div c ((ieee16s sqrt).sqrtClip vx)) ((ieee16s sqrt).sqrtClip vy) = q at *
  show (if (!F64.eq q q) = true then F16.round ((0 : ℤ) : ℚ) else q) = fin 0
  rw [r0]
  rcases h with rfl | rfl <;> simp [F64.eq]

/-- An infinite variance gives the correlation zero. -/
theorem rowQuotientHalf_left {sqrt : F64 → F64} (h : sqrt (inf false) = inf false) (c vy : F64) :
    (ieee16s sqrt).rowQuotient c (inf false) vy = fin 0 := by
  apply rowQuotientHalf_zero
  rw [sqrtClipHalf_inf h]
  exact F16.div_zero_or_nan (F16.div_inf c) _

theorem rowQuotientHalf_right {sqrt : F64 → F64} (h : sqrt (inf false) = inf false) (c vx : F64) :
    (ieee16s sqrt).rowQuotient c vx (inf false) = fin 0 := by
  apply rowQuotientHalf_zero
  rw [sqrtClipHalf_inf h]
  exact F16.div_inf _

/-- A bound on a product with a nonnegative factor that is at least `B * (1 - 1 / 256)`. -/
theorem factor_bound {d t B k l : ℝ} (hB : 0 < B) (ht : B * (1 - 1 / 256) ≤ t) (h : |d * t| ≤ B * k)
    (hl : k ≤ l * (1 - 1 / 256)) : |d| ≤ l := by
  have ht0 : 0 < t := lt_of_lt_of_le (mul_pos hB (by norm_num)) ht
  have hk : 0 ≤ k := by
    by_contra hneg
    have := mul_neg_of_pos_of_neg hB (not_le.1 hneg)
    linarith [abs_nonneg (d * t)]
  have hl0 : 0 ≤ l := by
    by_contra hneg
    have := not_le.1 hneg
    linarith
  rw [abs_mul, abs_of_pos ht0] at h
  by_contra hneg
  have h1 : l * t < |d| * t := mul_lt_mul_of_pos_right (not_le.1 hneg) ht0
  have h2 : l * (B * (1 - 1 / 256)) ≤ l * t := mul_le_mul_of_nonneg_left ht hl0
  have h3 : B * k ≤ B * (l * (1 - 1 / 256)) := mul_le_mul_of_nonneg_left hl hB.le
  have h4 : l * (B * (1 - 1 / 256)) = B * (l * (1 - 1 / 256)) := by ring
  linarith

theorem sqrt_near {a a' : ℝ} (ha : 0 < a) (h : |a' - a| ≤ a / 2 ^ 10) : |√a' - √a| ≤ √a / 2 ^ 10 := by
  have h1 := abs_le.1 h
  have hA : 0 < √a := Real.sqrt_pos.2 ha
  have e : √a * √a = a := Real.mul_self_sqrt ha.le
  have u : √a' ≤ √a * (1 + 1 / 2 ^ 10) := by
    rw [Real.sqrt_le_left (by positivity)]
    nlinarith
  have l : √a * (1 - 1 / 2 ^ 10) ≤ √a' := by
    apply Real.le_sqrt_of_sq_le
    have : (√a * (1 - 1 / 2 ^ 10)) ^ 2 = a * (1 - 1 / 2 ^ 10) ^ 2 := by rw [mul_pow, Real.sq_sqrt ha.le]
    rw [this]
    nlinarith
  rw [abs_le]
  constructor <;> linarith

theorem sqrtClipHalf_close {sqrt : F64 → F64} (hs : F16.IsSqrt sqrt) {a : ℝ} {a' : ℚ} (ha : 0 < a) (h : |(a' : ℝ) - a| ≤ a / 2 ^ 10) :
    ∃ s : ℚ, (ieee16s sqrt).sqrtClip (fin a') = fin s ∧ |(s : ℝ) - √a| ≤ √a / 256 := by
  have r0 : F16.round ((0 : ℤ) : ℚ) = fin 0 := by decide +kernel
  have h0 : 0 ≤ a' := by
    have := abs_le.1 h
    have : (0 : ℝ) ≤ a' := by linarith
    exact_mod_cast this
  obtain ⟨s, e, hc⟩ := hs.close a' h0
  refine ⟨s, ?_, ?_⟩
  · show sqrt (if F64.lt (fin a') (F16.round ((0 : ℤ) : ℚ)) = true then F16.round ((0 : ℤ) : ℚ) else fin a') = _
    rw [r0, if_neg (by simpa [F64.lt] using h0)]
    exact e
  · have h1 := abs_le.1 (sqrt_near ha h)
    have h2 := abs_le.1 hc
    have hA : 0 < √a := Real.sqrt_pos.2 ha
    rw [abs_le]
    constructor <;> linarith

theorem F16.div_close {p q : ℚ} (hq : q ≠ 0) (h : |p / q| < 65520) :
    ∃ r, F16.div (fin p) (fin q) = fin r ∧ |(r : ℝ) - p / q| ≤ |(p / q : ℝ)| / 2 ^ 11 + 1 / 2 ^ 25 := by
  obtain ⟨r, e, hr⟩ := F16.round_close h
  refine ⟨r, ?_, ?_⟩
  · show (if q = 0 then F64.div (fin p) (fin q) else F16.round (p / q)) = _
    rw [if_neg hq, e]
  · have := (Rat.cast_le (K := ℝ)).2 hr
    push_cast at this
    exact this

/-- The error of the quotient. -/
theorem rowQuotientHalf_close {sqrt : F64 → F64} (hs : F16.IsSqrt sqrt) {c a b : ℝ} {c' a' b' : ℚ} (ha : 0 < a)
    (hb : 1 / 2 ^ 14 ≤ b) (hb2 : b ≤ 65520) (hc : |c| ≤ √a * √b) (ea : |(a' : ℝ) - a| ≤ a / 2 ^ 10)
    (eb : |(b' : ℝ) - b| ≤ b / 2 ^ 10) (ec : |(c' : ℝ) - c| ≤ √a * √b / 2 ^ 10) :
    ∃ r : ℚ, (ieee16s sqrt).rowQuotient (fin c') (fin a') (fin b') = fin r ∧ |(r : ℝ) - c / (√a * √b)| ≤ 13 / 2 ^ 10 := by
  have hb0 : 0 < b := lt_of_lt_of_le (by norm_num) hb
  obtain ⟨s, es, hs1⟩ := sqrtClipHalf_close hs ha ea
  obtain ⟨t, et, ht1⟩ := sqrtClipHalf_close hs hb0 eb
  have hA : 0 < √a := Real.sqrt_pos.2 ha
  have hB : 0 < √b := Real.sqrt_pos.2 hb0
  have hB1 : 1 / 2 ^ 7 ≤ √b := Real.le_sqrt_of_sq_le (by norm_num at hb ⊢; exact hb)
  have hB2 : √b ≤ 256 := by
    rw [Real.sqrt_le_left (by norm_num)]
    linarith
  generalize √a = A at *
  generalize √b = B at *
  have hs2 := abs_le.1 hs1
  have ht2 := abs_le.1 ht1
  have s1 : A * (1 - 1 / 256) ≤ s := by linarith
  have t1 : B * (1 - 1 / 256) ≤ t := by linarith
  have s0' : (0 : ℝ) < s := lt_of_lt_of_le (mul_pos hA (by norm_num)) s1
  have t0' : (0 : ℝ) < t := lt_of_lt_of_le (mul_pos hB (by norm_num)) t1
  have s0 : s ≠ 0 := by
    rintro rfl
    simp at s0'
  have t0 : t ≠ 0 := by
    rintro rfl
    simp at t0'
  obtain ⟨ρ, hρ⟩ : ∃ ρ, ρ = c / (A * B) := ⟨_, rfl⟩
  have hcρ : c = ρ * (A * B) := by
    rw [hρ, div_mul_cancel₀ _ (mul_pos hA hB).ne']
  have hρ1 : |ρ| ≤ 1 := by
    rw [hρ, abs_div, abs_of_pos (mul_pos hA hB)]
    exact div_le_one_of_le₀ hc (mul_pos hA hB).le
  rw [← hρ]
  -- the first quotient
  have p1 : |(c' / s : ℝ) - ρ * B| ≤ B * (6 / 2 ^ 10) := by
    refine factor_bound hA s1 (k := B * (5 / 2 ^ 10)) ?_ (by linarith)
    have e : ((c' / s : ℝ) - ρ * B) * s = (c' - c) + ρ * (B * (A - s)) := by
      rw [hcρ]
      field_simp
      ring
    rw [e]
    have h1 : |ρ * (B * (A - s))| ≤ B * (A / 256) := by
      rw [abs_mul, abs_mul, abs_of_pos hB, abs_sub_comm A]
      calc _ ≤ 1 * (B * (A / 256)) := by gcongr
        _ = _ := one_mul _
    have h2 := abs_add_le ((c' : ℝ) - c) (ρ * (B * (A - s)))
    have h3 : A * (B * (5 / 2 ^ 10)) = A * B / 2 ^ 10 + B * (A / 256) := by ring
    linarith
  have hρB : |ρ * B| ≤ B := by
    rw [abs_mul, abs_of_pos hB]
    calc _ ≤ 1 * B := by gcongr
      _ = _ := one_mul _
  have p2 : |(c' / s : ℝ)| ≤ B * (1 + 6 / 2 ^ 10) := by
    have := abs_le.1 p1
    have := abs_le.1 hρB
    rw [abs_le]
    constructor <;> linarith
  have p3 : |c' / s| < 65520 := by
    have : |(c' / s : ℝ)| < 65520 := by linarith
    exact_mod_cast this
  obtain ⟨p, ep, hp⟩ := F16.div_close s0 p3
  have p4 : |(p : ℝ) - ρ * B| ≤ B * (7 / 2 ^ 10) := by
    have h1 := abs_sub_le (p : ℝ) (c' / s) (ρ * B)
    linarith
  -- the second quotient
  have q1 : |(p / t : ℝ) - ρ| ≤ 12 / 2 ^ 10 := by
    refine factor_bound hB t1 (k := 11 / 2 ^ 10) ?_ (by norm_num)
    have e : ((p / t : ℝ) - ρ) * t = (p - ρ * B) + ρ * (B - t) := by
      field_simp
      ring
    rw [e]
    have h1 : |ρ * (B - t)| ≤ B / 256 := by
      rw [abs_mul, abs_sub_comm B]
      calc _ ≤ 1 * (B / 256) := by gcongr
        _ = _ := one_mul _
    have h2 := abs_add_le ((p : ℝ) - ρ * B) (ρ * (B - t))
    linarith
  have q2 : |(p / t : ℝ)| ≤ 1 + 12 / 2 ^ 10 := by
    have := abs_le.1 q1
    have := abs_le.1 hρ1
    rw [abs_le]
    constructor <;> linarith
  have q3 : |p / t| < 65520 := by
    have : |(p / t : ℝ)| < 65520 := by linarith
    exact_mod_cast this
  obtain ⟨r, er, hr⟩ := F16.div_close t0 q3
  refine ⟨r, ?_, ?_⟩
  · have e : (ieee16s sqrt).div ((ieee16s sqrt).div (fin c') ((ieee16s sqrt).sqrtClip (fin a'))) ((ieee16s sqrt).sqrtClip (fin b'))
        = fin r := by
      rw [es, et]
      show F16.div (F16.div (fin c') (fin s)) (fin t) = _
      rw [ep, er]
    unfold Arith.rowQuotient
    dsimp only
    rw [e]
    show (if (!F64.eq (fin r) (fin r)) = true then _ else fin r) = fin r
    simp [F64.eq]
  · have h1 := abs_sub_le (r : ℝ) (p / t) ρ
    linarith

/-- The assumption on the square root can be met. -/
theorem sqrtSeq_half : F16.IsSqrt sqrtSeq := by
  refine ⟨rfl, fun q hq => ⟨sqrt64 q, ?_, ?_⟩⟩
  · show (if q < 0 then nan else fin (sqrt64 q)) = _
    rw [if_neg (not_lt.2 hq)]
  · refine (sqrt64_spec q hq).err.trans ?_
    gcongr
    · norm_num
    · norm_num

/-- Numbers below half of the smallest `float16` number are rounded to zero. -/
theorem F16.round_zero {q : ℚ} (h : |q| < 1 / 2 ^ 25) : F16.round q = fin 0 := by
  obtain ⟨z, hz, e⟩ := F16.tiny_eq q
  have he := abs_le.1 (rneQ_err (|q| * 2 ^ 24))
  rw [← hz] at he
  have h0 := abs_nonneg q
  have z1 : (z : ℚ) < 1 := by linarith
  have z2 : (-1 : ℚ) < z := by linarith
  have z0 : z = 0 := by
    have : z < 1 := by exact_mod_cast z1
    have : -1 < z := by exact_mod_cast z2
    omega
  subst z0
  have e0 : F16.roundTiny q = 0 := by rw [e]; simp
  have h1 : |q| < 1 / 2 ^ 14 := by linarith
  unfold F16.round
  simp only [h1, if_true, e0]
  norm_num

/-- A variance of zero gives an infinite correlation. -/
theorem rowQuotientHalf_infinite {sqrt : F64 → F64} (hs : F16.IsSqrt sqrt) {c b : ℚ} (hc : 0 < c) :
    (ieee16s sqrt).rowQuotient (fin c) (fin 0) (fin b) = inf false := by
  have r0 : F16.round ((0 : ℤ) : ℚ) = fin 0 := by decide +kernel
  have root : ∀ q : ℚ, ∃ t : ℚ, (ieee16s sqrt).sqrtClip (fin q) = fin t ∧ 0 ≤ t ∧ (q ≤ 0 → t = 0) := by
    have key : ∀ q : ℚ, 0 ≤ q → ∃ t : ℚ, sqrt (fin q) = fin t ∧ 0 ≤ t ∧ (q ≤ 0 → t = 0) := by
      intro q hq
      obtain ⟨t, et, ht⟩ := hs.close q hq
      have h1 := abs_le.1 ht
      have h2 := Real.sqrt_nonneg (q : ℝ)
      refine ⟨t, et, ?_, fun h => ?_⟩
      · have : (0 : ℝ) ≤ t := by linarith
        exact_mod_cast this
      · have : q = 0 := le_antisymm h hq
        subst this
        have : (t : ℝ) = 0 := by simpa using ht
        exact_mod_cast this
    intro q
    have e : (ieee16s sqrt).sqrtClip (fin q)
        = sqrt (if F64.lt (fin q) (F16.round ((0 : ℤ) : ℚ)) = true then F16.round ((0 : ℤ) : ℚ) else fin q) := rfl
    rw [e, r0]
    by_cases hq : q < 0
    · rw [if_pos (by simpa [F64.lt] using hq)]
      obtain ⟨t, et, h0, h1⟩ := key 0 le_rfl
      exact ⟨t, et, h0, fun _ => h1 le_rfl⟩
    · rw [if_neg (by simpa [F64.lt] using hq)]
      exact key q (not_lt.1 hq)
  obtain ⟨s, es, -, s0⟩ := root 0
  obtain ⟨t, et, t0, -⟩ := root b
  rw [s0 le_rfl] at es
  have e : (ieee16s sqrt).div ((ieee16s sqrt).div (fin c) ((ieee16s sqrt).sqrtClip (fin 0))) ((ieee16s sqrt).sqrtClip (fin b))
      = inf false := by
    rw [es, et]
    have e1 : (ieee16s sqrt).div (fin c) (fin 0) = inf false := by
      show (if (0 : ℚ) = 0 then (if (0 : ℚ) = 0 then if c = 0 then nan else inf (decide (c < 0)) else F64.round (c / 0)) else F16.round (c / 0)) = _
      rw [if_pos rfl, if_pos rfl, if_neg hc.ne', decide_eq_false (not_lt.2 hc.le)]
    rw [e1]
    show inf (false != decide (t < 0)) = inf false
    rw [decide_eq_false (not_lt.2 t0)]
    rfl
  unfold Arith.rowQuotient
  dsimp only
  rw [e]
  rfl

end Dcor

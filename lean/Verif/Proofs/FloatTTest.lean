/-
The t statistic in `float64` as a function of the correlation.
-/
import Verif.Model.RoundingTTest
import Verif.Proofs.Monotone64
import Verif.Proofs.Float

set_option exponentiation.threshold 1100

namespace Dcor

/-- A square root is at least any `float64` whose square is at most the number. -/
theorem SqrtTo.ge_of_sq_le {q r v : ℚ} (h : SqrtTo q r) (hv : round64 v = v) (h2 : round64 (v * v) = v * v)
    (hle : v * v ≤ q) : v ≤ r := by
  have key : ∀ {r : ℚ}, SqrtTo (v * v) r → r = |v| := fun h => SqrtTo.round_square hv (by rwa [h2])
  rcases hle.eq_or_lt with e | hlt
  · subst e
    rw [key h]
    exact le_abs_self v
  · have h3 := sqrt64_spec (v * v) (mul_self_nonneg v)
    have := h3.mono h hlt
    rw [key h3] at this
    exact (le_abs_self v).trans this

/-- A square root is at most any nonnegative `float64` whose square is at least the number. -/
theorem SqrtTo.le_of_le_sq {q r v : ℚ} (h : SqrtTo q r) (hv : round64 v = v) (h2 : round64 (v * v) = v * v)
    (hv0 : 0 ≤ v) (hle : q ≤ v * v) : r ≤ v := by
  have key : ∀ {r : ℚ}, SqrtTo (v * v) r → r = |v| := fun h => SqrtTo.round_square hv (by rwa [h2])
  rcases hle.eq_or_lt with e | hlt
  · subst e
    rw [key h, abs_of_nonneg hv0]
  · have h3 := sqrt64_spec (v * v) (mul_self_nonneg v)
    have := h.mono h3 hlt
    rwa [key h3, abs_of_nonneg hv0] at this

/-- The largest `float64` below one. -/
theorem float_lt_one {q : ℚ} (h : round64 q = q) (h1 : q < 1) : q ≤ 1 - 1 / 2 ^ 53 := by
  rcases lt_or_ge q (1 / 2) with h2 | h2
  · norm_num
    linarith
  · have h3 : (2 : ℚ) ^ (-1 : ℤ) ≤ |q| := by
      rw [abs_of_nonneg (by linarith)]
      norm_num
      linarith
    obtain ⟨z, hz⟩ := round64_grid (j := 1) h3
    rw [h] at hz
    have e : ((2 : ℚ) ^ (-((1 : ℤ) + 52))) = 1 / 2 ^ 53 := by norm_num
    rw [e] at hz
    have : (z : ℚ) < 2 ^ 53 := by
      rw [hz] at h1
      norm_num at h1 ⊢
      linarith
    have h4 : z < 2 ^ 53 := by exact_mod_cast this
    have h5 : (z : ℚ) ≤ 2 ^ 53 - 1 := by
      have : z ≤ 2 ^ 53 - 1 := by omega
      exact_mod_cast this
    rw [hz]
    norm_num at h5 ⊢
    linarith

namespace F64

theorem le_refl {a : F64} (h : a ≠ nan) : le a a := by
  right
  cases a <;> simp_all [eq]

theorem le_trans {a b c : F64} (h : le a b) (h' : le b c) : le a c := by
  unfold le at *
  cases a <;> cases b <;> cases c <;> simp_all [lt, eq]
  · rename_i s t u
    cases s <;> cases t <;> cases u <;> simp_all
  · rename_i a b c
    rw [← le_iff_lt_or_eq] at *
    exact h.trans h'

theorem le_fin {a b : ℚ} : le (fin a) (fin b) ↔ a ≤ b := by
  unfold le
  simp [lt, eq, le_iff_lt_or_eq]

theorem le_neg {a b : F64} (h : le a b) : le (neg b) (neg a) := by
  unfold le at *
  cases a <;> cases b <;> simp_all [lt, eq, neg]
  · rename_i s t
    cases s <;> cases t <;> simp_all
  · exact h.imp id Eq.symm

theorem neg_neg (a : F64) : neg (neg a) = a := by
  cases a <;> simp [neg]

theorem round_opposite (q : ℚ) : round (-q) = neg (round q) := by
  rw [round_def, round_def, roundNum_neg, abs_neg]
  split_ifs with h
  · have h0 : roundNum q ≠ 0 := by
      intro h0
      rw [h0] at h
      norm_num at h
    simp only [neg]
    congr 1
    rcases lt_or_gt_of_ne h0 with h1 | h1
    · simp [h1, h1.le]
    · simp [h1, h1.le]
  · rfl

theorem round_fin {q : ℚ} (h : |roundNum q| < 2 ^ 1024) : round q = fin (roundNum q) := by
  rw [round_def, if_neg (not_le.2 h)]

/-- Powers of two of moderate size are not changed. -/
theorem roundNum_pow {j : ℤ} (h : -1022 ≤ j) : roundNum (2 ^ j) = 2 ^ j := by
  unfold roundNum
  rw [if_neg, ← one_mul ((2 : ℚ) ^ j)]
  · exact_mod_cast round64_fixed (m := 1) (k := j) (by norm_num)
  · rw [abs_of_pos (by positivity), not_lt, one_div, show ((2 : ℚ) ^ 1022)⁻¹ = 2 ^ (-1022 : ℤ) from by
      rw [zpow_neg]; rfl]
    exact zpow_le_zpow_right₀ (by norm_num) h

theorem roundNum_one : roundNum 1 = 1 := by
  have := roundNum_pow (j := 0) (by norm_num)
  rwa [zpow_zero] at this

theorem roundNum_float {q : ℚ} (h : 1 / 2 ^ 1022 ≤ |q|) : roundNum q = round64 q := by
  unfold roundNum
  rw [if_neg (not_lt.2 h)]

/-- Numbers that are rounded to something below one are rounded to at most the largest `float64` below one. -/
theorem roundNum_lt_one {q : ℚ} (h : roundNum q < 1) : roundNum q ≤ 1 - 1 / 2 ^ 53 := by
  unfold roundNum at *
  split_ifs at * with h1
  · refine ((le_abs_self _).trans (roundTiny_le h1)).trans ?_
    norm_num
  · exact float_lt_one (round64_idem q) h

end F64

open F64

variable {n : ℕ} {sqrt : F64 → F64} {sum : List F64 → F64} {dot : List (F64 × F64) → F64}

/-- The number under the root in the denominator, after clipping. -/
def tUnder (q : ℚ) : ℚ := max 0 (roundNum (1 - roundNum (q * q)))

theorem tUnder_nonneg (q : ℚ) : 0 ≤ tUnder q := le_max_left _ _

theorem tUnder_neg (q : ℚ) : tUnder (-q) = tUnder q := by
  unfold tUnder
  rw [neg_mul_neg]

theorem tUnder_anti {p q : ℚ} (hp : 0 ≤ p) (h : p ≤ q) : tUnder q ≤ tUnder p := by
  unfold tUnder
  have := roundNum_mono (mul_le_mul h h hp (hp.trans h))
  exact max_le_max le_rfl (roundNum_mono (by linarith))

theorem tUnder_le_one (q : ℚ) : tUnder q ≤ 1 := by
  unfold tUnder
  refine max_le (by norm_num) ?_
  rw [← roundNum_one]
  have := roundNum_nonneg (mul_self_nonneg q)
  rw [roundNum_one]
  calc roundNum (1 - roundNum (q * q)) ≤ roundNum 1 := roundNum_mono (by linarith)
    _ = 1 := roundNum_one

theorem tUnder_big {q : ℚ} (h : 1 ≤ q) : tUnder q = 0 := by
  unfold tUnder
  refine max_eq_left ?_
  have h1 : roundNum 1 ≤ roundNum (q * q) := roundNum_mono (by nlinarith)
  rw [roundNum_one] at h1
  calc roundNum (1 - roundNum (q * q)) ≤ roundNum 0 := roundNum_mono (by linarith)
    _ = 0 := roundNum_zero

/-- Below one half the denominator is not zero. -/
theorem tUnder_half {q : ℚ} (h0 : 0 ≤ q) (h : q ≤ 1 / 2) : 0 < tUnder q := by
  refine lt_of_lt_of_le ?_ (tUnder_anti h0 h)
  unfold tUnder
  decide +kernel

/-- The denominator is not zero for the numbers of the format that are smaller than one. -/
theorem tUnder_float {q : ℚ} (h0 : 0 ≤ q) (hq : round64 q = q) (h : q < 1) : 0 < tUnder q := by
  refine lt_of_lt_of_le ?_ (tUnder_anti h0 (float_lt_one hq h))
  unfold tUnder
  decide +kernel

/-- If it is not zero it is not very small. -/
theorem tUnder_ge {q : ℚ} (h : 0 < tUnder q) : 1 / 2 ^ 53 ≤ tUnder q := by
  unfold tUnder at *
  have h1 : roundNum (q * q) < 1 := by
    by_contra hc
    have : roundNum (1 - roundNum (q * q)) ≤ roundNum 0 := roundNum_mono (by linarith)
    rw [roundNum_zero] at this
    rw [max_eq_left this] at h
    exact lt_irrefl _ h
  have h2 := roundNum_lt_one h1
  refine le_trans ?_ (le_max_right _ _)
  have h3 : roundNum (1 / 2 ^ 53) ≤ roundNum (1 - roundNum (q * q)) := roundNum_mono (by linarith)
  have h4 : roundNum (1 / 2 ^ 53) = 1 / 2 ^ 53 := by decide +kernel
  rwa [h4] at h3

theorem ieee_zero : (ieee64 sqrt sum dot).ofInt 0 = fin 0 := by
  show F64.round ((0 : ℤ) : ℚ) = fin 0
  decide +kernel

theorem ieee_one : (ieee64 sqrt sum dot).ofInt 1 = fin 1 := by
  show F64.round ((1 : ℤ) : ℚ) = fin 1
  decide +kernel

/-- The denominator. -/
theorem tDenominator (q : ℚ) :
    (ieee64 sqrt sum dot).sqrtClip ((ieee64 sqrt sum dot).sub ((ieee64 sqrt sum dot).ofInt 1)
      ((ieee64 sqrt sum dot).mul (fin q) (fin q))) = sqrt (fin (tUnder q)) := by
  unfold Arith.sqrtClip
  rw [ieee_zero, ieee_one]
  show sqrt (if F64.lt (F64.sub (fin 1) (F64.round (q * q))) (fin 0) = true then fin 0
    else F64.sub (fin 1) (F64.round (q * q))) = _
  congr 1
  have hR := roundNum_nonneg (mul_self_nonneg q)
  rw [F64.round_def (q * q)]
  split_ifs with h1 h2 h2
  · rw [abs_of_nonneg hR] at h1
    unfold tUnder
    rw [max_eq_left]
    calc roundNum (1 - roundNum (q * q)) ≤ roundNum 0 := roundNum_mono (by norm_num at h1 ⊢; linarith)
      _ = 0 := roundNum_zero
  · exfalso
    simp [F64.sub, F64.add, F64.neg, F64.lt, not_lt.2 hR] at h2
  · have e : F64.sub (fin 1) (fin (roundNum (q * q))) = F64.round (1 - roundNum (q * q)) := by
      show F64.round (1 + -roundNum (q * q)) = _
      rw [← sub_eq_add_neg]
    rw [e, F64.round_def] at h2
    unfold tUnder
    rw [max_eq_left]
    split_ifs at h2 with h3
    · by_contra hc
      simp [F64.lt] at h2
      exact hc h2.le
    · simp only [F64.lt, decide_eq_true_eq] at h2
      exact h2.le
  · have e : F64.sub (fin 1) (fin (roundNum (q * q))) = F64.round (1 - roundNum (q * q)) := by
      show F64.round (1 + -roundNum (q * q)) = _
      rw [← sub_eq_add_neg]
    rw [e] at h2 ⊢
    have hle : roundNum (1 - roundNum (q * q)) ≤ 1 := by
      calc roundNum (1 - roundNum (q * q)) ≤ roundNum 1 := roundNum_mono (by linarith)
        _ = 1 := roundNum_one
    rw [F64.round_def] at h2 ⊢
    unfold tUnder
    split_ifs at h2 ⊢ with h3
    · exfalso
      rcases lt_or_ge (roundNum (1 - roundNum (q * q))) 0 with h4 | h4
      · simp [F64.lt, h4] at h2
      · rw [abs_of_nonneg h4] at h3
        have := h3.trans hle
        norm_num at this
    · simp only [F64.lt, decide_eq_true_eq, not_lt] at h2
      rw [max_eq_right h2]

theorem isSqrt_fin (h : IsIeee64 sqrt sum dot) {q : ℚ} (hq : 0 ≤ q) : ∃ s, SqrtTo q s ∧ sqrt (fin q) = fin s := by
  have : if q < 0 then sqrt (fin q) = nan else ∃ s, SqrtTo q s ∧ sqrt (fin q) = fin s := h.sqrt (fin q)
  rwa [if_neg (not_lt.2 hq)] at this

/-- The degrees of freedom. -/
theorem tDegrees_fin (hn : 3 < n) (hn2 : n < 2 ^ 63) :
    ∃ v : ℚ, 1 ≤ v ∧ v ≤ 2 ^ 126 ∧ (ieee64 sqrt sum dot).tDegrees n = fin v := by
  have n4 : (4 : ℚ) ≤ n := by exact_mod_cast hn
  have nb : (n : ℚ) ≤ 2 ^ 63 := by exact_mod_cast hn2.le
  have pw : ∀ j : ℕ, roundNum ((2 : ℚ) ^ j) = 2 ^ j := fun j => by
    have := roundNum_pow (j := (j : ℤ)) (by omega)
    rwa [zpow_natCast] at this
  have key : ∀ {q : ℚ} (i j : ℕ), j ≤ 126 → (2 : ℚ) ^ i ≤ q → q ≤ 2 ^ j →
      F64.round q = fin (roundNum q) ∧ 2 ^ i ≤ roundNum q ∧ roundNum q ≤ 2 ^ j := by
    intro q i j hj h1 h2
    have h3 := roundNum_mono h1
    have h4 := roundNum_mono h2
    rw [pw] at h3 h4
    refine ⟨round_fin ?_, h3, h4⟩
    rw [abs_of_nonneg (le_trans (by positivity) h3)]
    refine lt_of_le_of_lt (h4.trans (pow_le_pow_right₀ (by norm_num) hj)) ?_
    norm_num
  obtain ⟨e1, l1, u1⟩ := key (q := (n : ℚ) * (n - 3)) 2 126 le_rfl (by nlinarith) (by
    have : (n : ℚ) * (n - 3) ≤ 2 ^ 63 * 2 ^ 63 := mul_le_mul nb (by linarith) (by linarith) (by positivity)
    norm_num at this ⊢
    linarith)
  obtain ⟨e2, l2, u2⟩ := key (q := roundNum ((n : ℚ) * (n - 3)) / 2) 1 126 le_rfl (by linarith) (by linarith)
  obtain ⟨e3, l3, u3⟩ := key (q := roundNum (roundNum ((n : ℚ) * (n - 3)) / 2) - 1) 0 126 le_rfl (by linarith)
    (by linarith)
  refine ⟨_, by simpa using l3, u3, ?_⟩
  rw [← e3]
  unfold Arith.tDegrees Arith.idiv
  rw [ieee_one]
  have h2 : (ieee64 sqrt sum dot).ofInt 2 = fin 2 := by
    show F64.round ((2 : ℤ) : ℚ) = fin 2
    decide +kernel
  have h3 : (ieee64 sqrt sum dot).ofInt ((n : ℤ) * ((n : ℤ) - 3)) = fin (roundNum ((n : ℚ) * (n - 3))) := by
    rw [← e1]
    show F64.round (((n : ℤ) * ((n : ℤ) - 3) : ℤ) : ℚ) = _
    push_cast
    rfl
  rw [h2, h3]
  have h4 : F64.div (fin (roundNum ((n : ℚ) * (n - 3)))) (fin 2) = F64.round (roundNum ((n : ℚ) * (n - 3)) / 2) := by
    unfold F64.div
    dsimp only
    rw [if_neg (by norm_num)]
  show F64.sub (F64.div (fin (roundNum ((n : ℚ) * (n - 3)))) (fin 2)) (fin 1) = _
  rw [h4, e2]
  show F64.round (roundNum (roundNum ((n : ℚ) * (n - 3)) / 2) + -1) = _
  rw [← sub_eq_add_neg]

/-- The statistic is the correlation times a positive number, divided by the root. -/
theorem tFloat_fin (h : IsIeee64 sqrt sum dot) (hn : 3 < n) (hn2 : n < 2 ^ 63) :
    ∃ s : ℚ, 1 ≤ s ∧ s ≤ 2 ^ 63 ∧ (ieee64 sqrt sum dot).sqrt ((ieee64 sqrt sum dot).tDegrees n) = fin s := by
  obtain ⟨v, v1, v2, e⟩ := tDegrees_fin (sqrt := sqrt) (sum := sum) (dot := dot) hn hn2
  obtain ⟨s, hs, es⟩ := isSqrt_fin h (q := v) (by linarith)
  refine ⟨s, hs.ge_of_sq_le (by decide +kernel) (by decide +kernel) (by linarith),
    hs.le_of_le_sq (by decide +kernel) (by decide +kernel) (by norm_num) (by norm_num at v2 ⊢; linarith), ?_⟩
  rw [e]
  exact es

/-- The statistic of a finite correlation. -/
theorem tFloat_div {s : ℚ} (hs : (ieee64 sqrt sum dot).sqrt ((ieee64 sqrt sum dot).tDegrees n) = fin s) (q : ℚ) :
    (ieee64 sqrt sum dot).tStatistic n (fin q) = F64.div (F64.round (s * q)) (sqrt (fin (tUnder q))) := by
  unfold Arith.tStatistic
  rw [hs, tDenominator]
  rfl

theorem sqrt_zero (h : IsIeee64 sqrt sum dot) : sqrt (fin 0) = fin 0 := by
  obtain ⟨s, hs, e⟩ := isSqrt_fin h (q := 0) le_rfl
  rw [e, hs.eq_zero.2 rfl]

theorem tFloat_infinite (h : IsIeee64 sqrt sum dot) (hn : 3 < n) (hn2 : n < 2 ^ 63) {q : ℚ} (hq : 0 ≤ q)
    (h0 : tUnder q = 0) : (ieee64 sqrt sum dot).tStatistic n (fin q) = inf false := by
  obtain ⟨s, s1, s2, e⟩ := tFloat_fin h hn hn2
  rw [tFloat_div e, h0, sqrt_zero h, F64.round_def]
  have hq2 : 1 / 2 ≤ q := by
    by_contra hc
    have := tUnder_half hq (not_le.1 hc).le
    rw [h0] at this
    exact lt_irrefl _ this
  have h1 : roundNum (1 / 2) ≤ roundNum (s * q) := roundNum_mono (by nlinarith)
  have h2 : roundNum (1 / 2) = 1 / 2 := by decide +kernel
  rw [h2] at h1
  split_ifs with h3
  · simp [F64.div]
    linarith
  · have h4 : roundNum (s * q) ≠ 0 := by linarith
    have h5 : ¬ roundNum (s * q) < 0 := by linarith
    simp [F64.div, h4]
    linarith

theorem tFloat_finite (h : IsIeee64 sqrt sum dot) {s : ℚ}
    (hs : (ieee64 sqrt sum dot).sqrt ((ieee64 sqrt sum dot).tDegrees n) = fin s) (s1 : 1 ≤ s) (s2 : s ≤ 2 ^ 63) {q : ℚ}
    (hq : 0 ≤ q) (h0 : 0 < tUnder q) : ∃ d, SqrtTo (tUnder q) d ∧ sqrt (fin (tUnder q)) = fin d ∧ 1 / 2 ^ 27 ≤ d ∧ q < 1 ∧
      (ieee64 sqrt sum dot).tStatistic n (fin q) = fin (roundNum (roundNum (s * q) / d)) := by
  have hq1 : q < 1 := by
    by_contra hc
    rw [tUnder_big (not_lt.1 hc)] at h0
    exact lt_irrefl _ h0
  obtain ⟨d, hd, ed⟩ := isSqrt_fin h (tUnder_nonneg q)
  have d1 : 1 / 2 ^ 27 ≤ d := by
    refine hd.ge_of_sq_le (by decide +kernel) (by decide +kernel) (le_trans ?_ (tUnder_ge h0))
    norm_num
  have d0 : 0 < d := lt_of_lt_of_le (by norm_num) d1
  refine ⟨d, hd, ed, d1, hq1, ?_⟩
  have a0 : 0 ≤ roundNum (s * q) := roundNum_nonneg (mul_nonneg (by linarith) hq)
  have a1 : roundNum (s * q) ≤ 2 ^ 63 := by
    have h1 : roundNum (s * q) ≤ roundNum (2 ^ 63) := roundNum_mono (by nlinarith)
    have h2 : roundNum (2 ^ 63) = 2 ^ 63 := by decide +kernel
    rwa [h2] at h1
  have b0 : 0 ≤ roundNum (s * q) / d := div_nonneg a0 d0.le
  have b1 : roundNum (s * q) / d ≤ 2 ^ 90 := by
    rw [div_le_iff₀ d0]
    norm_num at a1 d1 ⊢
    linarith
  have c1 : roundNum (roundNum (s * q) / d) ≤ 2 ^ 90 := by
    have h1 := roundNum_mono b1
    have h2 : roundNum (2 ^ 90) = 2 ^ 90 := by decide +kernel
    rwa [h2] at h1
  rw [tFloat_div hs, ed, round_fin (by rw [abs_of_nonneg a0]; exact lt_of_le_of_lt a1 (by norm_num))]
  have : F64.div (fin (roundNum (s * q))) (fin d) = F64.round (roundNum (s * q) / d) := by
    unfold F64.div
    dsimp only
    rw [if_neg d0.ne']
  rw [this, round_fin]
  rw [abs_of_nonneg (roundNum_nonneg b0)]
  exact lt_of_le_of_lt c1 (by norm_num)

theorem tFloat_nan : (ieee64 sqrt sum dot).tStatistic n nan = nan := by
  unfold Arith.tStatistic
  show F64.div (F64.mul _ nan) _ = nan
  have : ∀ a, F64.mul a nan = nan := fun a => by cases a <;> rfl
  rw [this]
  rfl

theorem tFloat_inf (h : IsIeee64 sqrt sum dot) (hn : 3 < n) (hn2 : n < 2 ^ 63) (b : Bool) :
    (ieee64 sqrt sum dot).tStatistic n (inf b) = inf b := by
  obtain ⟨s, s1, s2, e⟩ := tFloat_fin h hn hn2
  unfold Arith.tStatistic Arith.sqrtClip
  rw [e, ieee_zero, ieee_one]
  have h1 : (ieee64 sqrt sum dot).mul (inf b) (inf b) = inf false := by
    show F64.mul (inf b) (inf b) = _
    cases b <;> rfl
  have h2 : (ieee64 sqrt sum dot).sub (fin 1) (inf false) = inf true := rfl
  have h3 : (ieee64 sqrt sum dot).lt (inf true) (fin 0) = true := rfl
  have h4 : (ieee64 sqrt sum dot).mul (fin s) (inf b) = inf b := by
    show (if s = 0 then nan else inf (decide (s < 0) != b)) = _
    rw [if_neg (by linarith), decide_eq_false (by linarith)]
    cases b <;> rfl
  rw [h1, h2, if_pos h3, h4]
  show F64.div (inf b) (sqrt (fin 0)) = _
  rw [sqrt_zero h]
  cases b <;> rfl

theorem div_neg {a : F64} {d : ℚ} (hd : 0 ≤ d) (had : a ≠ fin 0 ∨ d ≠ 0) :
    F64.div (neg a) (fin d) = neg (F64.div a (fin d)) := by
  cases a with
  | nan => rfl
  | inf b =>
    simp only [F64.neg, F64.div, decide_eq_false (not_lt.2 hd)]
    cases b <;> rfl
  | fin a =>
    show (if d = 0 then if -a = 0 then nan else inf (decide (-a < 0)) else F64.round (-a / d))
      = neg (if d = 0 then if a = 0 then nan else inf (decide (a < 0)) else F64.round (a / d))
    split_ifs with h1 h2 h3 h3
    · rfl
    · exact absurd (neg_eq_zero.1 h2) h3
    · exact absurd (neg_eq_zero.2 h3) h2
    · show _ = inf (!decide (a < 0))
      congr 1
      rcases lt_or_gt_of_ne h3 with h4 | h4
      · simp [h4, h4.le]
      · simp [h4, h4.le]
    · rw [neg_div, round_opposite]

theorem tFloat_neg (h : IsIeee64 sqrt sum dot) (hn : 3 < n) (hn2 : n < 2 ^ 63) (r : F64) :
    (ieee64 sqrt sum dot).tStatistic n (neg r) = neg ((ieee64 sqrt sum dot).tStatistic n r) := by
  have key : ∀ q : ℚ, 0 ≤ q → (ieee64 sqrt sum dot).tStatistic n (fin (-q))
      = neg ((ieee64 sqrt sum dot).tStatistic n (fin q)) := by
    intro q hq
    obtain ⟨s, s1, s2, e⟩ := tFloat_fin h hn hn2
    obtain ⟨d, hd, ed⟩ := isSqrt_fin h (tUnder_nonneg q)
    rw [tFloat_div e, tFloat_div e, tUnder_neg, mul_neg, round_opposite, ed]
    refine div_neg hd.nonneg ?_
    by_contra hc
    push Not at hc
    have h0 := hd.eq_zero.1 hc.2
    have hq2 : 1 / 2 ≤ q := by
      by_contra hc
      have := tUnder_half hq (not_le.1 hc).le
      rw [h0] at this
      exact lt_irrefl _ this
    have h1 : roundNum (1 / 2) ≤ roundNum (s * q) := roundNum_mono (by nlinarith)
    have h2 : roundNum (1 / 2) = 1 / 2 := by decide +kernel
    rw [h2] at h1
    have h3 := hc.1
    rw [F64.round_def] at h3
    split_ifs at h3
    rw [F64.fin.injEq] at h3
    linarith
  cases r with
  | nan => rw [show neg nan = nan from rfl, tFloat_nan]; rfl
  | inf b => rw [show neg (inf b) = inf (!b) from rfl, tFloat_inf h hn hn2, tFloat_inf h hn hn2]; rfl
  | fin q =>
    rcases le_total 0 q with hq | hq
    · exact key q hq
    · have := key (-q) (by linarith)
      rw [_root_.neg_neg] at this
      rw [this, F64.neg_neg]
      rfl

/-- The statistic does not decrease on the nonnegative numbers. -/
theorem tFloat_mono_nonneg (h : IsIeee64 sqrt sum dot) (hn : 3 < n) (hn2 : n < 2 ^ 63) {p q : ℚ} (hp : 0 ≤ p)
    (hpq : p ≤ q) : F64.le ((ieee64 sqrt sum dot).tStatistic n (fin p)) ((ieee64 sqrt sum dot).tStatistic n (fin q)) := by
  obtain ⟨s, s1, s2, e⟩ := tFloat_fin h hn hn2
  have ha := tUnder_anti hp hpq
  rcases (tUnder_nonneg p).eq_or_lt with h0 | h0
  · have h1 : tUnder q = 0 := le_antisymm (by rw [h0]; exact ha) (tUnder_nonneg q)
    rw [tFloat_infinite h hn hn2 hp h0.symm, tFloat_infinite h hn hn2 (hp.trans hpq) h1]
    exact F64.le_refl (by simp)
  · obtain ⟨d, hd, sd, d1, -, ep⟩ := tFloat_finite h e s1 s2 hp h0
    rcases (tUnder_nonneg q).eq_or_lt with h1 | h1
    · rw [ep, tFloat_infinite h hn hn2 (hp.trans hpq) h1.symm]
      left
      rfl
    · obtain ⟨d', hd', sd', d1', -, eq⟩ := tFloat_finite h e s1 s2 (hp.trans hpq) h1
      rw [ep, eq, F64.le_fin]
      have d0 : 0 < d' := lt_of_lt_of_le (by norm_num) d1'
      have hdd : d' ≤ d := by
        rcases ha.eq_or_lt with h2 | h2
        · rw [h2, sd, F64.fin.injEq] at sd'
          exact sd'.symm.le
        · exact hd'.mono hd h2
      refine roundNum_mono (div_le_div₀ (roundNum_nonneg (mul_nonneg (by linarith) (hp.trans hpq))) ?_ d0 hdd)
      exact roundNum_mono (mul_le_mul_of_nonneg_left hpq (by linarith))

/-- The statistic does not decrease. -/
theorem tFloat_mono (h : IsIeee64 sqrt sum dot) (hn : 3 < n) (hn2 : n < 2 ^ 63) {r r' : F64} (hr : F64.le r r') :
    F64.le ((ieee64 sqrt sum dot).tStatistic n r) ((ieee64 sqrt sum dot).tStatistic n r') := by
  have nonneg : ∀ q : ℚ, 0 ≤ q → F64.le (fin 0) ((ieee64 sqrt sum dot).tStatistic n (fin q)) := by
    intro q hq
    have := tFloat_mono_nonneg h hn hn2 le_rfl hq
    have e : (ieee64 sqrt sum dot).tStatistic n (fin 0) = fin 0 := by
      obtain ⟨s, s1, s2, e⟩ := tFloat_fin h hn hn2
      obtain ⟨d, -, -, -, -, ed⟩ := tFloat_finite h e s1 s2 le_rfl (tUnder_half le_rfl (by norm_num))
      rw [ed, mul_zero, roundNum_zero, zero_div, roundNum_zero]
    rwa [e] at this
  have opp : ∀ q : ℚ, (ieee64 sqrt sum dot).tStatistic n (fin (-q)) = neg ((ieee64 sqrt sum dot).tStatistic n (fin q)) :=
    fun q => tFloat_neg h hn hn2 (fin q)
  have finle : ∀ p q : ℚ, p ≤ q →
      F64.le ((ieee64 sqrt sum dot).tStatistic n (fin p)) ((ieee64 sqrt sum dot).tStatistic n (fin q)) := by
    intro p q hpq
    rcases le_total 0 p with hp | hp
    · exact tFloat_mono_nonneg h hn hn2 hp hpq
    · have e1 := opp (-p)
      rw [_root_.neg_neg] at e1
      rcases le_total 0 q with hq | hq
      · refine F64.le_trans ?_ (nonneg q hq)
        rw [e1]
        have := F64.le_neg (nonneg (-p) (by linarith))
        rwa [show neg (fin 0) = fin 0 from by simp [neg]] at this
      · have e2 := opp (-q)
        rw [_root_.neg_neg] at e2
        rw [e1, e2]
        exact F64.le_neg (tFloat_mono_nonneg h hn hn2 (by linarith) (by linarith))
  have nn : ∀ q : ℚ, (ieee64 sqrt sum dot).tStatistic n (fin q) ≠ nan := by
    intro q hc
    have := finle q q le_rfl
    rw [hc] at this
    rcases this with h1 | h1 <;> simp [F64.lt, F64.eq] at h1
  cases r with
  | nan => rcases hr with h1 | h1 <;> simp [F64.lt, F64.eq] at h1
  | inf b =>
    cases r' with
    | nan => cases b <;> rcases hr with h1 | h1 <;> simp [F64.lt, F64.eq] at h1
    | inf b' => rwa [tFloat_inf h hn hn2, tFloat_inf h hn hn2]
    | fin q =>
      have hb : b = true := by
        rcases hr with h1 | h1
        · exact h1
        · simp [F64.eq] at h1
      subst hb
      rw [tFloat_inf h hn hn2]
      have := nn q
      cases hT : (ieee64 sqrt sum dot).tStatistic n (fin q) with
      | nan => exact absurd hT this
      | inf b => cases b <;> simp [F64.le, F64.lt, F64.eq]
      | fin a => left; rfl
  | fin p =>
    cases r' with
    | nan => rcases hr with h1 | h1 <;> simp [F64.lt, F64.eq] at h1
    | inf b =>
      have hb : b = false := by
        rcases hr with h1 | h1
        · simpa [F64.lt] using h1
        · simp [F64.eq] at h1
      subst hb
      rw [tFloat_inf h hn hn2]
      have := nn p
      cases hT : (ieee64 sqrt sum dot).tStatistic n (fin p) with
      | nan => exact absurd hT this
      | inf b => cases b <;> simp [F64.le, F64.lt, F64.eq]
      | fin a => left; rfl
    | fin q => exact finle p q (F64.le_fin.1 hr)

end Dcor

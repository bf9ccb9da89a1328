/-
The t statistic as a function of the bias-corrected correlation.
-/
import Verif.Model.Independence
import Verif.Proofs.Api
import Verif.Proofs.SpecAlg
import Mathlib.Analysis.SpecialFunctions.Trigonometric.Inverse

namespace Dcor

variable {n : ℕ}

/-- Square root of the degrees of freedom. -/
noncomputable def tScale (n : ℕ) : ℝ := Real.sqrt ((n : ℝ) * ((n : ℝ) - 3) / 2 - 1)

theorem tDof_pos (hn : 3 < n) : (0 : ℝ) < (n : ℝ) * ((n : ℝ) - 3) / 2 - 1 := by
  have : (4 : ℝ) ≤ n := by exact_mod_cast hn
  nlinarith

theorem tScale_pos (hn : 3 < n) : 0 < tScale n := Real.sqrt_pos.2 (tDof_pos hn)

theorem tStatistic_eq (hn : 3 < n) (r : ℝ) :
    tStatistic n (.fin r) = .fin (tScale n * r) / .fin (Real.sqrt (1 - r * r)) := by
  unfold tStatistic
  dsimp only
  rw [FP.npSqrt, if_neg (not_lt.2 (tDof_pos hn).le), FP.fin_mul, FP.fin_mul, FP.fin_sub,
    sqrtClip_fin]
  rfl

theorem tStatistic_inner (hn : 3 < n) {r : ℝ} (h : |r| < 1) :
    tStatistic n (.fin r) = .fin (tScale n * (r / Real.sqrt (1 - r ^ 2))) := by
  rw [tStatistic_eq hn, FP.fin_div, mul_div_assoc, sq]
  apply ne_of_gt
  rw [Real.sqrt_pos]
  have := (sq_lt_one_iff_abs_lt_one r).2 h
  nlinarith

theorem tStatistic_one (hn : 3 < n) : tStatistic n (.fin 1) = .pinf := by
  rw [tStatistic_eq hn]
  have h := tScale_pos hn
  simp [FP.fin_div', FP.infOfSign, h, h.ne']

theorem tStatistic_neg_one (hn : 3 < n) : tStatistic n (.fin (-1)) = .ninf := by
  rw [tStatistic_eq hn]
  have h := tScale_pos hn
  simp [FP.fin_div', FP.infOfSign, h.le, h.ne']

theorem tStatistic_nan (n : ℕ) : tStatistic n .nan = .nan := by
  unfold tStatistic
  dsimp only
  have h : FP.npSqrt (FP.fin ((n : ℝ) * ((n : ℝ) - 3) / 2 - 1)) * FP.nan = FP.nan := FP.mul_nan _
  rw [h]
  generalize sqrtClip _ = d
  cases d <;> rfl

theorem strictMono_tan_arcsin {r s : ℝ} (hr : -1 < r) (hrs : r < s) (hs : s < 1) :
    r / Real.sqrt (1 - r ^ 2) < s / Real.sqrt (1 - s ^ 2) := by
  rw [← Real.tan_arcsin, ← Real.tan_arcsin]
  apply Real.tan_lt_tan_of_lt_of_lt_pi_div_two
  · exact Real.neg_pi_div_two_lt_arcsin.2 hr
  · exact Real.arcsin_lt_pi_div_two.2 hs
  · exact Real.strictMonoOn_arcsin ⟨hr.le, (hrs.trans hs).le⟩ ⟨(hr.trans hrs).le, hs.le⟩ hrs

theorem tStatistic_strictMono (hn : 3 < n) {r s : ℝ} (hr : |r| ≤ 1) (hs : |s| ≤ 1) (h : r < s) :
    FP.lt (tStatistic n (.fin r)) (tStatistic n (.fin s)) := by
  rw [abs_le] at hr hs
  rcases hr.1.lt_or_eq with hr1 | hr1
  · rcases hs.2.lt_or_eq with hs1 | hs1
    · rw [tStatistic_inner hn (abs_lt.2 ⟨hr1, h.trans hs1⟩),
        tStatistic_inner hn (abs_lt.2 ⟨hr1.trans h, hs1⟩), FP.lt_fin]
      exact mul_lt_mul_of_pos_left (strictMono_tan_arcsin hr1 h hs1) (tScale_pos hn)
    · rw [tStatistic_inner hn (abs_lt.2 ⟨hr1, hs1 ▸ h⟩), hs1, tStatistic_one hn]
      trivial
  · rw [← hr1, tStatistic_neg_one hn]
    rcases hs.2.lt_or_eq with hs1 | hs1
    · rw [tStatistic_inner hn (abs_lt.2 ⟨hr1 ▸ h, hs1⟩)]
      trivial
    · rw [hs1, tStatistic_one hn]
      trivial

theorem tStatistic_neg (hn : 3 < n) {r : ℝ} (hr : |r| ≤ 1) :
    tStatistic n (.fin (-r)) = -tStatistic n (.fin r) := by
  rcases hr.lt_or_eq with h | h
  · rw [tStatistic_inner hn h, tStatistic_inner hn (by rwa [abs_neg]), FP.neg_fin, neg_sq]
    congr 1
    ring
  · rcases (abs_eq zero_le_one).1 h with rfl | rfl
    · rw [tStatistic_one hn, tStatistic_neg_one hn]
      rfl
    · rw [neg_neg, tStatistic_one hn, tStatistic_neg_one hn]
      rfl

end Dcor

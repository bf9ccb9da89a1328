/-
C97: the test of independence for high dimension in `float64`.
-/
import Verif.Proofs.FloatTTestError
import Verif.Props.Transfer

set_option exponentiation.threshold 1100

namespace Dcor.Props

open Dcor F64

variable {sqrt : F64 → F64} {sum : List F64 → F64} {dot : List (F64 × F64) → F64} {n p q : ℕ}

/-! ### When the statistic is NaN or infinite -/

/-- C97: with at least four observations the statistic is NaN only if the correlation is. -/
theorem C97_nan (h : IsIeee64 sqrt sum dot) (hn : 3 < n) (hn2 : n < 2 ^ 63) (r : F64) :
    (ieee64 sqrt sum dot).tStatistic n r = nan ↔ r = nan := by
  constructor
  · intro hT
    by_contra hr
    have := tFloat_mono h hn hn2 (F64.le_refl hr)
    rw [hT] at this
    rcases this with h1 | h1 <;> simp [F64.lt, F64.eq] at h1
  · rintro rfl
    exact tFloat_nan

/-- C97: with fewer observations it is always NaN. -/
theorem C97_few_observations (h : IsIeee64 sqrt sum dot) (hn : n ≤ 3) (r : F64) :
    (ieee64 sqrt sum dot).tStatistic n r = nan := by
  have key : ∃ v : ℚ, v < 0 ∧ (ieee64 sqrt sum dot).tDegrees n = fin v := by
    have e : (ieee64 sqrt sum dot).tDegrees n = (ieee64 id sumSeq dotSeq).tDegrees n := rfl
    rw [e]
    interval_cases n
    · exact ⟨-1, by norm_num, by decide +kernel⟩
    · exact ⟨-2, by norm_num, by decide +kernel⟩
    · exact ⟨-2, by norm_num, by decide +kernel⟩
    · exact ⟨-1, by norm_num, by decide +kernel⟩
  obtain ⟨v, v0, e⟩ := key
  have hs : (ieee64 sqrt sum dot).sqrt ((ieee64 sqrt sum dot).tDegrees n) = nan := by
    rw [e]
    have : if v < 0 then sqrt (fin v) = nan else ∃ s, SqrtTo v s ∧ sqrt (fin v) = fin s := h.sqrt (fin v)
    rwa [if_pos v0] at this
  unfold Arith.tStatistic
  rw [hs]
  rfl

/-- C97: a finite correlation gives an infinite statistic exactly if it is at least one, or at most minus one. -/
theorem C97_infinite (h : IsIeee64 sqrt sum dot) (hn : 3 < n) (hn2 : n < 2 ^ 63) {r : ℚ} (hr : round64 r = r) :
    ((ieee64 sqrt sum dot).tStatistic n (fin r) = inf false ↔ 1 ≤ r) ∧
      ((ieee64 sqrt sum dot).tStatistic n (fin r) = inf true ↔ r ≤ -1) := by
  obtain ⟨s, s1, s2, e⟩ := tFloat_fin h hn hn2
  have pos : ∀ {r : ℚ}, round64 r = r → 0 ≤ r → (ieee64 sqrt sum dot).tStatistic n (fin r) = inf false ∧ 1 ≤ r ∨
      (∃ t, (ieee64 sqrt sum dot).tStatistic n (fin r) = fin t) ∧ r < 1 := by
    intro r hr r0
    rcases lt_or_ge r 1 with h1 | h1
    · obtain ⟨d, -, -, -, -, ed⟩ := tFloat_finite h e s1 s2 r0 (tUnder_float r0 hr h1)
      exact Or.inr ⟨⟨_, ed⟩, h1⟩
    · exact Or.inl ⟨tFloat_infinite h hn hn2 r0 (tUnder_big h1), h1⟩
  rcases le_total 0 r with r0 | r0
  · rcases pos hr r0 with ⟨eT, h1⟩ | ⟨⟨t, eT⟩, h1⟩
    · rw [eT]
      exact ⟨by simp [h1], by simp; linarith⟩
    · rw [eT]
      exact ⟨by simp [h1], by simp; linarith⟩
  · have eN := tFloat_neg h hn hn2 (fin (-r))
    rw [show neg (fin (-r)) = fin r by simp [neg]] at eN
    rcases pos (r := -r) (by rw [round64_neg, hr]) (by linarith) with ⟨eT, h1⟩ | ⟨⟨t, eT⟩, h1⟩
    · rw [eN, eT]
      exact ⟨by simp [neg]; linarith, by simp [neg]; linarith⟩
    · rw [eN, eT]
      exact ⟨by simp [neg]; linarith, by simp [neg]; linarith⟩

/-! ### Order -/

/-- C97: the opposite correlation gives the opposite statistic. -/
theorem C97_odd (h : IsIeee64 sqrt sum dot) (hn : 3 < n) (hn2 : n < 2 ^ 63) (r : F64) :
    (ieee64 sqrt sum dot).tStatistic n (neg r) = neg ((ieee64 sqrt sum dot).tStatistic n r) :=
  tFloat_neg h hn hn2 r

/-- C97: in spite of the rounding errors of its six operations, a larger correlation never gives a smaller statistic. -/
theorem C97_monotone (h : IsIeee64 sqrt sum dot) (hn : 3 < n) (hn2 : n < 2 ^ 63) {r r' : F64}
    (hr : F64.lt r r' = true ∨ F64.eq r r' = true) :
    F64.lt ((ieee64 sqrt sum dot).tStatistic n r) ((ieee64 sqrt sum dot).tStatistic n r') = true ∨
      F64.eq ((ieee64 sqrt sum dot).tStatistic n r) ((ieee64 sqrt sum dot).tStatistic n r') = true :=
  tFloat_mono h hn hn2 hr

theorem sub_anti (a : ℚ) {c c' : F64} (hc : F64.le c c') : F64.le (F64.sub (fin a) c') (F64.sub (fin a) c) := by
  cases c with
  | nan => rcases hc with h1 | h1 <;> simp [F64.lt, F64.eq] at h1
  | inf b =>
    cases c' with
    | nan => cases b <;> rcases hc with h1 | h1 <;> simp [F64.lt, F64.eq] at h1
    | inf b' => exact F64.le_neg hc
    | fin c' =>
      have hb : b = true := by
        rcases hc with h1 | h1
        · exact h1
        · simp [F64.eq] at h1
      subst hb
      show F64.le (F64.round (a + -c')) (inf false)
      rw [F64.round_def]
      split_ifs with h1
      · by_cases h2 : roundNum (a + -c') < 0
        · left; simp [F64.lt, h2]
        · right; simp [F64.eq, h2]
      · left; rfl
  | fin c =>
    cases c' with
    | nan => rcases hc with h1 | h1 <;> simp [F64.lt, F64.eq] at h1
    | inf b =>
      have hb : b = false := by
        rcases hc with h1 | h1
        · simpa [F64.lt] using h1
        · simp [F64.eq] at h1
      subst hb
      show F64.le (inf true) (F64.round (a + -c))
      rw [F64.round_def]
      split_ifs with h1
      · by_cases h2 : roundNum (a + -c) < 0
        · right; simp [F64.eq, h2]
        · left; simp [F64.lt, h2]
      · left; rfl
    | fin c' => exact F64.round_mono (by linarith [F64.le_fin.1 hc])

/-- C97: a larger correlation never gives a larger p-value, if the distribution function is not decreasing. -/
theorem C97_pvalue_monotone (h : IsIeee64 sqrt sum dot) (hn : 3 < n) (hn2 : n < 2 ^ 63) {cdf : F64 → F64 → F64}
    (hcdf : ∀ df t t', (F64.lt t t' = true ∨ F64.eq t t' = true) →
      F64.lt (cdf t df) (cdf t' df) = true ∨ F64.eq (cdf t df) (cdf t' df) = true) {r r' : F64}
    (hr : F64.lt r r' = true ∨ F64.eq r r' = true) :
    F64.lt ((ieee64 sqrt sum dot).tPvalue cdf n r') ((ieee64 sqrt sum dot).tPvalue cdf n r) = true ∨
      F64.eq ((ieee64 sqrt sum dot).tPvalue cdf n r') ((ieee64 sqrt sum dot).tPvalue cdf n r) = true := by
  have := sub_anti 1 (hcdf ((ieee64 sqrt sum dot).tDegrees n) _ _ (tFloat_mono h hn hn2 hr))
  unfold Arith.tPvalue
  rw [ieee_one]
  exact this

/-! ### A sample with itself -/

/-- C97: with the naive method the test of a sample against itself has an infinite statistic and p-value zero, whatever
the rounding errors, if the computed distance variance is positive and the magnitudes are moderate (see C87). -/
theorem C97_self_naive (h : IsIeee64 sqrt sum dot) {N g K : ℕ} {x : Fin n → Fin p → ℚ} (hn : 3 < n) (hN : n ≤ 2 ^ N)
    (hp : p ≤ 2 ^ N) (hN' : N ≤ 26) (hg : 2 * g + 4 * N ≤ 301) (hK : 2 * K + 6 * N ≤ 478)
    (hgK : 2 * K + 2 * g + 10 * N ≤ 703) (hx : ∀ i k, Within g K (x i k))
    (hv : F64.lt (fin 0) ((ieee64 sqrt sum dot).naiveStats true (fun i k => fin (x i k)) (fun i k => fin (x i k))).varX = true)
    {cdf : F64 → F64 → F64} (hcdf : ∀ df, cdf (inf false) df = fin 1) :
    (ieee64 sqrt sum dot).tStatistic n
        ((ieee64 sqrt sum dot).naiveStats true (fun i k => fin (x i k)) (fun i k => fin (x i k))).corr = inf false ∧
      (ieee64 sqrt sum dot).tPvalue cdf n
        ((ieee64 sqrt sum dot).naiveStats true (fun i k => fin (x i k)) (fun i k => fin (x i k))).corr = fin 0 := by
  obtain ⟨sqrt', sum', dot', h', key⟩ := C87_naive h
  have e := key true (by omega) (fun _ => hn) hN hp hp hN' (by omega) (by omega) (by omega) hx hx
  have hn2 : n < 2 ^ 63 := lt_of_le_of_lt (hN.trans (Nat.pow_le_pow_right (by norm_num) hN')) (by norm_num)
  rw [e] at hv ⊢
  have hv' : 0 < ((binary64 sqrt' sum' dot').naiveStats true x x).varX := by
    change decide _ = true at hv
    simpa using hv
  have hc := C69_self_correlation_naive_partial h' true x hv'
  have hc' : ((binary64 sqrt' sum' dot').naiveStats true x x).fin.corr = fin 1 := by
    show fin ((binary64 sqrt' sum' dot').naiveStats true x x).corr = fin 1
    rw [hc]
  have hT : (ieee64 sqrt sum dot).tStatistic n (fin 1) = inf false :=
    (C97_infinite h hn hn2 (r := 1) (by decide +kernel)).1.2 le_rfl
  rw [hc']
  refine ⟨hT, ?_⟩
  unfold Arith.tPvalue
  rw [hT, hcdf, ieee_one]
  show F64.round (1 + -1) = fin 0
  decide +kernel

/-- Times in seconds since 1970. -/
def someTimes : Fin 4 → F64 := fun i => fin ((![0, 1, 2, 4] : Fin 4 → ℚ) i + 1700000000)

/-- Other times in seconds since 1970. -/
def otherTimes : Fin 4 → F64 := fun i => fin ((![2, 0, 3, 1] : Fin 4 → ℚ) i + 1700000000)

/-- The same times since 1700000000. -/
def someDelays : Fin 4 → F64 := fun i => fin ((![0, 1, 2, 4] : Fin 4 → ℚ) i)

@[inherit_doc someDelays]
def otherDelays : Fin 4 → F64 := fun i => fin ((![2, 0, 3, 1] : Fin 4 → ℚ) i)

/-- What `np.argsort` returns for `[2, 0, 3, 1]`. -/
def otherOrder : Equiv.Perm (Fin 4) := ⟨![1, 3, 0, 2], ![2, 0, 3, 1], by decide, by decide⟩

/-- The correlation of two samples of which the first is sorted. -/
theorem avl_corr_of {A : Arith F64} {compiled : Bool} {argsort : (Fin 4 → F64) → Equiv.Perm (Fin 4)} {x y : Fin 4 → F64}
    {σ : Equiv.Perm (Fin 4)} {P : F64 → Prop} (hx : argsort x = Equiv.refl _) (hy : argsort y = σ)
    (key : ∃ c, (A.avlStats true compiled (fun v => if v 0 = x 0 then Equiv.refl _ else σ) x y).map (·.corr) = .ok c ∧ P c)
    (hσ : x 0 = y 0 → σ = Equiv.refl _) : ∃ s, A.avlStats true compiled argsort x y = .ok s ∧ P s.corr := by
  have e : A.avlStats true compiled argsort x y
      = A.avlStats true compiled (fun v => if v 0 = x 0 then Equiv.refl _ else σ) x y := by
    have e2 : (if y 0 = x 0 then Equiv.refl _ else σ) = σ := by
      split_ifs with h
      · exact (hσ h.symm).symm
      · rfl
    unfold Arith.avlStats Arith.avlTerms Arith.avlTermsWith
    simp only [hx, hy, Equiv.refl_apply, if_true, e2]
  obtain ⟨c, hc, hP⟩ := key
  rw [e]
  cases h : A.avlStats true compiled (fun v => if v 0 = x 0 then Equiv.refl _ else σ) x y with
  | error e => rw [h] at hc; cases hc
  | ok r =>
    rw [h] at hc
    refine ⟨r, rfl, ?_⟩
    rw [show r.corr = c from Except.ok.inj hc]
    exact hP

/-- C97 fails for the default method: `distance_correlation_t_test(x, x)` for the times `[0, 1, 2, 4] + 1700000000` has the
statistic minus infinity and p-value 1. For `[0, 1, 2, 4]` they are infinity and 0, as they should be. -/
theorem C97_self_avl_fails (compiled : Bool) {argsort : (Fin 4 → F64) → Equiv.Perm (Fin 4)}
    (h1 : argsort someTimes = Equiv.refl _) (h2 : argsort someDelays = Equiv.refl _) {cdf : F64 → F64 → F64}
    (hcdf : ∀ df, cdf (inf true) df = fin 0 ∧ cdf (inf false) df = fin 1) :
    (∃ s, (ieee64 sqrtSeq sumSeq dotSeq).avlStats true compiled argsort someTimes someTimes = .ok s ∧
      (ieee64 sqrtSeq sumSeq dotSeq).tStatistic 4 s.corr = inf true ∧
      (ieee64 sqrtSeq sumSeq dotSeq).tPvalue cdf 4 s.corr = fin 1) ∧
    ∃ s, (ieee64 sqrtSeq sumSeq dotSeq).avlStats true compiled argsort someDelays someDelays = .ok s ∧
      (ieee64 sqrtSeq sumSeq dotSeq).tStatistic 4 s.corr = inf false ∧
      (ieee64 sqrtSeq sumSeq dotSeq).tPvalue cdf 4 s.corr = fin 0 := by
  have k1 := avl_corr_of (A := ieee64 sqrtSeq sumSeq dotSeq) (compiled := compiled)
    (P := fun r => r = fin (-7107243161944051 / 281474976710656)) h1 h1
    ⟨_, by cases compiled <;> decide +kernel, rfl⟩ (fun _ => rfl)
  have k2 := avl_corr_of (A := ieee64 sqrtSeq sumSeq dotSeq) (compiled := compiled) (P := fun r => r = fin 1) h2 h2
    ⟨_, by cases compiled <;> decide +kernel, rfl⟩ (fun _ => rfl)
  obtain ⟨s, es, hs⟩ := k1
  obtain ⟨s', es', hs'⟩ := k2
  have t1 : (ieee64 sqrtSeq sumSeq dotSeq).tStatistic 4 s.corr = inf true := by rw [hs]; decide +kernel
  have t2 : (ieee64 sqrtSeq sumSeq dotSeq).tStatistic 4 s'.corr = inf false := by rw [hs']; decide +kernel
  refine ⟨⟨s, es, t1, ?_⟩, s', es', t2, ?_⟩
  · unfold Arith.tPvalue
    rw [t1, (hcdf _).1]
    decide +kernel
  · unfold Arith.tPvalue
    rw [t2, (hcdf _).2]
    decide +kernel

/-- C97 fails for the default method in the other direction: the times `[0, 1, 2, 4] + 1700000000` and
`[2, 0, 3, 1] + 1700000000` have an infinite statistic and p-value 0. Without the common term the correlation is about
-1/2 and the statistic is negative. -/
theorem C97_independent_avl_fails (compiled : Bool) {argsort : (Fin 4 → F64) → Equiv.Perm (Fin 4)}
    (h1 : argsort someTimes = Equiv.refl _) (h2 : argsort otherTimes = otherOrder)
    (h3 : argsort someDelays = Equiv.refl _) (h4 : argsort otherDelays = otherOrder) {cdf : F64 → F64 → F64}
    (hcdf : ∀ df, cdf (inf false) df = fin 1) :
    (∃ s, (ieee64 sqrtSeq sumSeq dotSeq).avlStats true compiled argsort someTimes otherTimes = .ok s ∧
      (ieee64 sqrtSeq sumSeq dotSeq).tStatistic 4 s.corr = inf false ∧
      (ieee64 sqrtSeq sumSeq dotSeq).tPvalue cdf 4 s.corr = fin 0) ∧
    ∃ s r t, (ieee64 sqrtSeq sumSeq dotSeq).avlStats true compiled argsort someDelays otherDelays = .ok s ∧
      s.corr = fin r ∧ r < -49 / 100 ∧ (ieee64 sqrtSeq sumSeq dotSeq).tStatistic 4 s.corr = fin t ∧ t < -1 / 2 := by
  have k1 := avl_corr_of (A := ieee64 sqrtSeq sumSeq dotSeq) (compiled := compiled)
    (P := fun r => (ieee64 sqrtSeq sumSeq dotSeq).tStatistic 4 r = inf false) h1 h2
    ⟨fin (6262818231812085 / 35184372088832), by cases compiled <;> decide +kernel, by decide +kernel⟩ (fun h => absurd h (by decide +kernel))
  have k2 := avl_corr_of (A := ieee64 sqrtSeq sumSeq dotSeq) (compiled := compiled)
    (P := fun r => r = fin (-562949953421309 / 1125899906842624)) h3 h4
    ⟨_, by cases compiled <;> decide +kernel, rfl⟩ (fun h => absurd h (by decide +kernel))
  obtain ⟨s, es, t1⟩ := k1
  obtain ⟨s', es', hs'⟩ := k2
  refine ⟨⟨s, es, t1, ?_⟩, s', _, -650038614296159 / 1125899906842624, es', hs', by norm_num, ?_, by norm_num⟩
  · unfold Arith.tPvalue
    rw [t1, hcdf _]
    decide +kernel
  · rw [hs']
    decide +kernel

/-! ### Accuracy -/

/-- C97: error of the statistic and of the p-value if the correlation is within `ε` of `ρ`, both are at most `m < 1` in
absolute value, and there are at most `2 ** 26` observations. `L` is a Lipschitz constant of the distribution function of
Student's t, and `η` bounds the errors of `scipy.stats.t.cdf`. Missing: correlations close to one in absolute value, for
which the errors of the AVL method can turn dependence into independence (see `C97_self_avl_fails`). -/
theorem C97_accuracy_partial (h : IsIeee64 sqrt sum dot) (hn : 3 < n) (hn2 : n ≤ 2 ^ 26) {r : ℚ} {ρ m ε : ℝ}
    (hrρ : |(r : ℝ) - ρ| ≤ ε) (hr : |(r : ℝ)| ≤ m) (hρ : |ρ| ≤ m) (hm : 1 / 2 ^ 40 ≤ 1 - m ^ 2) :
    ∃ t : ℚ, (ieee64 sqrt sum dot).tStatistic n (fin r) = fin t ∧
      |(t : ℝ) - √((n : ℝ) * (n - 3) / 2 - 1) * ρ / √(1 - ρ ^ 2)|
        ≤ √((n : ℝ) * (n - 3) / 2 - 1) * (ε + 6 / 2 ^ 53) / ((1 - m ^ 2) * √(1 - m ^ 2)) ∧
      ∀ (T : StudentT) (L η : ℝ) (cdf : F64 → F64 → F64) (c : ℚ), cdf (fin t) (fin ((n : ℚ) * (n - 3) / 2 - 1)) = fin c →
        0 ≤ c → c ≤ 1 → |(c : ℝ) - T.cdf ((n : ℝ) * (n - 3) / 2 - 1) t| ≤ η →
        (∀ a b, |T.cdf ((n : ℝ) * (n - 3) / 2 - 1) a - T.cdf ((n : ℝ) * (n - 3) / 2 - 1) b| ≤ L * |a - b|) → 0 ≤ L →
        ∃ pv : ℚ, (ieee64 sqrt sum dot).tPvalue cdf n (fin r) = fin pv ∧
          |(pv : ℝ) - (1 - T.cdf ((n : ℝ) * (n - 3) / 2 - 1) (√((n : ℝ) * (n - 3) / 2 - 1) * ρ / √(1 - ρ ^ 2)))|
            ≤ L * (√((n : ℝ) * (n - 3) / 2 - 1) * (ε + 6 / 2 ^ 53) / ((1 - m ^ 2) * √(1 - m ^ 2))) + η + 2 / 2 ^ 53 := by
  have m0 : 0 ≤ m := (abs_nonneg _).trans hr
  have m1 : m < 1 := by
    have : (0 : ℝ) < 1 / 2 ^ 40 := by positivity
    nlinarith
  have hδ : 0 < 1 - m ^ 2 := lt_of_lt_of_le (by positivity) hm
  have hX : 1 - m ^ 2 ≤ 1 - (r : ℝ) ^ 2 := by
    have := sq_le_sq' (abs_le.1 hr).1 (abs_le.1 hr).2
    linarith
  obtain ⟨t, et, ht⟩ := tFloat_error h hn hn2 (r := r) (hm.trans hX)
  have hσ0 : 0 ≤ tScale n := (tScale_pos hn).le
  have hσ : tScale n = √((n : ℝ) * (n - 3) / 2 - 1) := rfl
  rw [← hσ]
  have hD : (1 - m ^ 2) * √(1 - m ^ 2) ≤ (1 - (r : ℝ) ^ 2) * √(1 - (r : ℝ) ^ 2) :=
    mul_le_mul hX (Real.sqrt_le_sqrt hX) (Real.sqrt_nonneg _) (hδ.le.trans hX)
  have hD0 : 0 < (1 - m ^ 2) * √(1 - m ^ 2) := mul_pos hδ (Real.sqrt_pos.2 hδ)
  have h1 : tScale n / ((1 - (r : ℝ) ^ 2) * √(1 - (r : ℝ) ^ 2)) ≤ tScale n / ((1 - m ^ 2) * √(1 - m ^ 2)) :=
    div_le_div_of_nonneg_left hσ0 hD0 hD
  have h2 := (tRatio_lipschitz m1 hr hρ).trans (div_le_div_of_nonneg_right hrρ hD0.le)
  have h3 : |tScale n * (r / √(1 - (r : ℝ) ^ 2)) - tScale n * ρ / √(1 - ρ ^ 2)|
      ≤ tScale n * (ε / ((1 - m ^ 2) * √(1 - m ^ 2))) := by
    rw [mul_div_assoc, ← mul_sub, abs_mul, abs_of_nonneg hσ0]
    exact mul_le_mul_of_nonneg_left h2 hσ0
  have hE : |(t : ℝ) - tScale n * ρ / √(1 - ρ ^ 2)| ≤ tScale n * (ε + 6 / 2 ^ 53) / ((1 - m ^ 2) * √(1 - m ^ 2)) := by
    calc |(t : ℝ) - tScale n * ρ / √(1 - ρ ^ 2)|
        = |((t : ℝ) - tScale n * (r / √(1 - (r : ℝ) ^ 2)))
            + (tScale n * (r / √(1 - (r : ℝ) ^ 2)) - tScale n * ρ / √(1 - ρ ^ 2))| := by ring_nf
      _ ≤ 6 / 2 ^ 53 * (tScale n / ((1 - m ^ 2) * √(1 - m ^ 2))) + tScale n * (ε / ((1 - m ^ 2) * √(1 - m ^ 2))) :=
          (abs_add_le _ _).trans (add_le_add (ht.trans (mul_le_mul_of_nonneg_left h1 (by positivity))) h3)
      _ = _ := by ring
  refine ⟨t, et, hE, ?_⟩
  intro T L η cdf c hc c0 c1 hcη hL L0
  have ep := roundNum_err (1 - c)
  have hb : |1 - c| ≤ 1 := by rw [abs_le]; constructor <;> linarith
  refine ⟨roundNum (1 - c), ?_, ?_⟩
  · unfold Arith.tPvalue
    rw [et, tDegrees_exact hn hn2, hc, ieee_one]
    show F64.round (1 + -c) = _
    rw [← sub_eq_add_neg]
    refine round_fin ?_
    have a0 := roundNum_nonneg (q := 1 - c) (by linarith)
    have a1 := roundNum_mono (p := 1 - c) (q := 1) (by linarith)
    rw [roundNum_one] at a1
    rw [abs_of_nonneg a0]
    exact lt_of_le_of_lt a1 (by norm_num)
  · have ep' : |((roundNum (1 - c) : ℚ) : ℝ) - (1 - c)| ≤ 2 / 2 ^ 53 := by
      have : |roundNum (1 - c) - (1 - c)| ≤ 2 / 2 ^ 53 := by
        refine ep.trans ?_
        have h5 : (1 : ℚ) / 2 ^ 1074 ≤ 1 / 2 ^ 53 := by norm_num
        have h6 := div_le_div_of_nonneg_right hb (show (0 : ℚ) ≤ 2 ^ 53 by positivity)
        calc _ ≤ 1 / 2 ^ 53 + 1 / 2 ^ 53 := add_le_add h6 h5
          _ = 2 / 2 ^ 53 := by norm_num
      have := (Rat.cast_le (K := ℝ)).2 this
      push_cast at this
      exact this
    have h7 := (hL t (tScale n * ρ / √(1 - ρ ^ 2))).trans (mul_le_mul_of_nonneg_left hE L0)
    have a1 := abs_le.1 ep'
    have a2 := abs_le.1 h7
    have a3 := abs_le.1 hcη
    rw [abs_le]
    constructor <;> linarith

/-- C97: accuracy of the test with the naive method. `r` bounds the relative errors of the variances, as in C84. -/
theorem C97_naive_partial (h : IsIeee64 sqrt sum dot) {N gx gy Kx Ky : ℕ} {x : Fin n → Fin p → ℚ} {y : Fin n → Fin q → ℚ}
    (hn : 3 < n) (hN : n ≤ 2 ^ N) (hp : p ≤ 2 ^ N) (hq : q ≤ 2 ^ N) (hN' : N ≤ 25) (hg : gx + gy + 4 * N ≤ 301)
    (hK : Kx + Ky + 6 * N ≤ 478) (hgK : Kx + Ky + gx + gy + 10 * N ≤ 703) (hx : ∀ i k, Within gx Kx (x i k))
    (hy : ∀ i k, Within gy Ky (y i k)) {A B r m : ℝ} (hA : ∀ i j, realDist x i j ≤ A) (hB : ∀ i j, realDist y i j ≤ B)
    (hr : r ≤ 1 / 4) (hx0 : 0 < Spec.uDcovSqr (realDist x) (realDist x)) (hy0 : 0 < Spec.uDcovSqr (realDist y) (realDist y))
    (hxr : 36 * (n ^ 2 + 4 * n + max p q + 16 : ℕ) * A * A / 2 ^ 53 ≤ r * Spec.uDcovSqr (realDist x) (realDist x))
    (hyr : 36 * (n ^ 2 + 4 * n + max p q + 16 : ℕ) * B * B / 2 ^ 53 ≤ r * Spec.uDcovSqr (realDist y) (realDist y))
    (hm : |Spec.uDcorSqr (realDist x) (realDist y)| + (3 * r + 6 / 2 ^ 53) ≤ m) (hm1 : 1 / 2 ^ 40 ≤ 1 - m ^ 2) :
    ∃ t : ℚ, (ieee64 sqrt sum dot).tStatistic n
        ((ieee64 sqrt sum dot).naiveStats true (fun i k => fin (x i k)) (fun i k => fin (y i k))).corr = fin t ∧
      |(t : ℝ) - √((n : ℝ) * (n - 3) / 2 - 1) * Spec.uDcorSqr (realDist x) (realDist y)
          / √(1 - Spec.uDcorSqr (realDist x) (realDist y) ^ 2)|
        ≤ √((n : ℝ) * (n - 3) / 2 - 1) * (3 * r + 12 / 2 ^ 53) / ((1 - m ^ 2) * √(1 - m ^ 2)) := by
  obtain ⟨sqrt', sum', dot', h', key⟩ := C87_naive h
  have e := key true (by omega) (fun _ => hn) hN hp hq (by omega) hg hK hgK hx hy
  have h25 : 2 ^ N ≤ 2 ^ 25 := Nat.pow_le_pow_right (by norm_num) hN'
  have hK' : n ^ 2 + 4 * n + max p q + 16 ≤ 2 ^ 53 := by
    have h1 : n ^ 2 ≤ (2 ^ 25) ^ 2 := Nat.pow_le_pow_left (hN.trans h25) 2
    have h2 : max p q ≤ 2 ^ 25 := max_le (hp.trans h25) (hq.trans h25)
    have h3 := hN.trans h25
    norm_num at h1 h2 h3 ⊢
    omega
  obtain ⟨e1, -⟩ := C84_naive_unbiased_partial h' hn x y hA hB hK' hr hx0 hy0 hxr hyr
  have e0 : 0 ≤ 3 * r + 6 / 2 ^ 53 := (abs_nonneg _).trans e1
  rw [e]
  have hc : |(((binary64 sqrt' sum' dot').naiveStats true x y).corr : ℝ)| ≤ m := by
    have := abs_sub_abs_le_abs_sub (((binary64 sqrt' sum' dot').naiveStats true x y).corr : ℝ)
      (Spec.uDcorSqr (realDist x) (realDist y))
    linarith
  obtain ⟨t, et, ht, -⟩ := C97_accuracy_partial h hn (hN.trans (h25.trans (by norm_num))) e1 hc (by linarith) hm1
  refine ⟨t, et, ht.trans (le_of_eq ?_)⟩
  ring

/-- C97: accuracy of the test with the AVL method; `X` and `Y` bound the observations, and have to be small compared to
the distances for a useful bound. -/
theorem C97_avl_partial (h : IsIeee64 sqrt sum dot) (compiled : Bool) {argsort : (Fin n → F64) → Equiv.Perm (Fin n)}
    (hsort : ∀ v : Fin n → ℚ, Monotone fun i => v (argsort (fun i => fin (v i)) i)) {N gx gy Kx Ky : ℕ} {x y : Fin n → ℚ}
    (hn : 3 < n) (hN : n ≤ 2 ^ N) (hN' : N ≤ 26) (hg : gx + gy + 5 * N ≤ 277) (hK : Kx + Ky + 5 * N ≤ 470)
    (hgK : Kx + Ky + gx + gy + 9 * N ≤ 643) (hx : ∀ i, Within gx Kx (x i)) (hy : ∀ i, Within gy Ky (y i))
    (fx : ∀ i, round64 (x i) = x i) (fy : ∀ i, round64 (y i) = y i) {X Y : ℚ} {r m : ℝ} (hX : ∀ i, |x i| ≤ X)
    (hY : ∀ i, |y i| ≤ Y) (hr : r ≤ 1 / 4)
    (hx0 : 0 < Spec.uDcovSqr (realDist fun i (_ : Fin 1) => x i) (realDist fun i (_ : Fin 1) => x i))
    (hy0 : 0 < Spec.uDcovSqr (realDist fun i (_ : Fin 1) => y i) (realDist fun i (_ : Fin 1) => y i))
    (hxr : 2368 * (4 * n + 22) * (X * X : ℝ) / 2 ^ 53
      ≤ r * Spec.uDcovSqr (realDist fun i (_ : Fin 1) => x i) (realDist fun i (_ : Fin 1) => x i))
    (hyr : 2368 * (4 * n + 22) * (Y * Y : ℝ) / 2 ^ 53
      ≤ r * Spec.uDcovSqr (realDist fun i (_ : Fin 1) => y i) (realDist fun i (_ : Fin 1) => y i))
    (hm : |Spec.uDcorSqr (realDist fun i (_ : Fin 1) => x i) (realDist fun i (_ : Fin 1) => y i)| + (3 * r + 6 / 2 ^ 53) ≤ m)
    (hm1 : 1 / 2 ^ 40 ≤ 1 - m ^ 2) :
    ∃ s t, (ieee64 sqrt sum dot).avlStats true compiled argsort (fun i => fin (x i)) (fun i => fin (y i)) = .ok s ∧
      (ieee64 sqrt sum dot).tStatistic n s.corr = fin t ∧
      |(t : ℝ) - √((n : ℝ) * (n - 3) / 2 - 1) * Spec.uDcorSqr (realDist fun i (_ : Fin 1) => x i) (realDist fun i (_ : Fin 1) => y i)
          / √(1 - Spec.uDcorSqr (realDist fun i (_ : Fin 1) => x i) (realDist fun i (_ : Fin 1) => y i) ^ 2)|
        ≤ √((n : ℝ) * (n - 3) / 2 - 1) * (3 * r + 12 / 2 ^ 53) / ((1 - m ^ 2) * √(1 - m ^ 2)) := by
  obtain ⟨sqrt', sum', dot', h', key⟩ := C87_avl h
  obtain ⟨s, e, e'⟩ := key true compiled argsort hn hN hN' hg hK hgK hx hy
  have h26 := hN.trans (Nat.pow_le_pow_right (by norm_num) hN')
  obtain ⟨s', es, e1, -⟩ := C84_avl_unbiased_partial h' hn compiled hsort fx fy hX hY (by norm_num at h26 ⊢; omega) hr hx0 hy0
    hxr hyr
  obtain rfl := Except.ok.inj (e.symm.trans es)
  have e0 : 0 ≤ 3 * r + 6 / 2 ^ 53 := (abs_nonneg _).trans e1
  have hc : |(s.corr : ℝ)| ≤ m := by
    have := abs_sub_abs_le_abs_sub (s.corr : ℝ)
      (Spec.uDcorSqr (realDist fun i (_ : Fin 1) => x i) (realDist fun i (_ : Fin 1) => y i))
    linarith
  obtain ⟨t, et, ht, -⟩ := C97_accuracy_partial h hn h26 e1 hc (by linarith) hm1
  refine ⟨s.fin, t, e', et, ht.trans (le_of_eq ?_)⟩
  ring

/-! ### Cases that meet the hypotheses -/

example : (ieee64 sqrtSeq sumSeq dotSeq).tStatistic 10 (fin (1 / 2)) ≠ nan :=
  fun h => absurd ((C97_nan ieee64_seq (by norm_num) (by norm_num) _).1 h) (by simp)

example : (ieee64 sqrtSeq sumSeq dotSeq).tStatistic 3 (fin (1 / 2)) = nan :=
  C97_few_observations ieee64_seq le_rfl _

/-- The largest `float64` below one has a finite statistic, and the next but one an infinite one. -/
example : (ieee64 sqrtSeq sumSeq dotSeq).tStatistic 1000 (fin (1 - 1 / 2 ^ 53)) ≠ inf false ∧
    (ieee64 sqrtSeq sumSeq dotSeq).tStatistic 1000 (fin (1 + 1 / 2 ^ 52)) = inf false := by
  refine ⟨fun h => ?_, (C97_infinite ieee64_seq (by norm_num) (by norm_num) (by decide +kernel)).1.2 (by norm_num)⟩
  have := (C97_infinite ieee64_seq (by norm_num) (by norm_num) (by decide +kernel)).1.1 h
  norm_num at this

example : F64.lt ((ieee64 sqrtSeq sumSeq dotSeq).tStatistic 10 (fin (1 / 3))) ((ieee64 sqrtSeq sumSeq dotSeq).tStatistic 10
    (fin (1 / 2))) = true ∨ F64.eq ((ieee64 sqrtSeq sumSeq dotSeq).tStatistic 10 (fin (1 / 3)))
    ((ieee64 sqrtSeq sumSeq dotSeq).tStatistic 10 (fin (1 / 2))) = true :=
  C97_monotone ieee64_seq (by norm_num) (by norm_num) (Or.inl (by decide +kernel))

/-- A distribution function with values 0, 1/2 and 1, for the examples. -/
def stepCdf (t _df : F64) : F64 :=
  match t with
  | nan => nan
  | inf b => if b then fin 0 else fin 1
  | fin _ => fin (1 / 2)

example : F64.lt ((ieee64 sqrtSeq sumSeq dotSeq).tPvalue stepCdf 10 (fin 2))
    ((ieee64 sqrtSeq sumSeq dotSeq).tPvalue stepCdf 10 (fin (1 / 2))) = true ∨
    F64.eq ((ieee64 sqrtSeq sumSeq dotSeq).tPvalue stepCdf 10 (fin 2))
    ((ieee64 sqrtSeq sumSeq dotSeq).tPvalue stepCdf 10 (fin (1 / 2))) = true := by
  refine C97_pvalue_monotone ieee64_seq (by norm_num) (by norm_num) ?_ (Or.inl (by decide +kernel))
  intro df t t' h
  cases t with
  | nan => rcases h with h | h <;> simp [F64.lt, F64.eq] at h
  | inf b =>
    cases t' with
    | nan => cases b <;> rcases h with h | h <;> simp [F64.lt, F64.eq] at h
    | inf b' => cases b <;> cases b' <;> revert h <;> simp [stepCdf, F64.lt, F64.eq]
    | fin c => cases b <;> revert h <;> simp [stepCdf, F64.lt, F64.eq]
  | fin a =>
    cases t' with
    | nan => rcases h with h | h <;> simp [F64.lt, F64.eq] at h
    | inf b => cases b <;> revert h <;> simp [stepCdf, F64.lt, F64.eq]; norm_num
    | fin c => simp [stepCdf, F64.eq]

theorem corr_within (i : Fin 4) : Within 0 2 (corrX i) ∧ Within 0 2 (corrY i) := by
  refine ⟨⟨⟨(![0, 1, 2, 4] : Fin 4 → ℤ) i, ?_⟩, ?_⟩, ⟨⟨(![1, 3, 0, 2] : Fin 4 → ℤ) i, ?_⟩, ?_⟩⟩ <;>
    revert i <;> decide +kernel

theorem corrXY_uCov : Spec.uDcovSqr (realDist fun i (_ : Fin 1) => corrX i) (realDist fun i (_ : Fin 1) => corrY i)
    = -1 / 3 := by
  unfold realDist
  rw [← exactFrom_unbiased (by norm_num)]
  have : exactFrom 4 true (absTerms corrX corrY).meanProd (absTerms corrX corrY).aAxis (absTerms corrX corrY).aTotal
      (absTerms corrX corrY).bAxis (absTerms corrX corrY).bTotal = -1 / 3 := by decide +kernel
  rw [this]; push_cast; norm_num

theorem corrXY_uCor : Spec.uDcorSqr (realDist fun i (_ : Fin 1) => corrX i) (realDist fun i (_ : Fin 1) => corrY i)
    = -1 / 2 := by
  unfold Spec.uDcorSqr Spec.ratio
  rw [corrXY_uCov, corrX_uVar, corrY_uVar]
  rw [if_neg (by norm_num), abs_of_pos (by norm_num), Real.sqrt_mul_self (by norm_num)]
  norm_num

example : (ieee64 sqrtSeq sumSeq dotSeq).tPvalue stepCdf 4 ((ieee64 sqrtSeq sumSeq dotSeq).naiveStats true
    (fun i (_ : Fin 1) => fin (corrX i)) (fun i (_ : Fin 1) => fin (corrX i))).corr = fin 0 :=
  (C97_self_naive ieee64_seq (N := 2) (g := 0) (K := 2) (x := fun i (_ : Fin 1) => corrX i) (by norm_num) (by norm_num)
    (by norm_num) (by norm_num) (by norm_num) (by norm_num) (by norm_num) (fun i _ => (corr_within i).1) (by decide +kernel)
    (fun _ => rfl)).2

example : ∃ t : ℚ, (ieee64 sqrtSeq sumSeq dotSeq).tStatistic 4 ((ieee64 sqrtSeq sumSeq dotSeq).naiveStats true
    (fun i (_ : Fin 1) => fin (corrX i)) (fun i (_ : Fin 1) => fin (corrY i))).corr = fin t ∧
    |(t : ℝ) - √(4 * (4 - 3) / 2 - 1) * (-1 / 2) / √(1 - (-1 / 2) ^ 2)| ≤ 1 / 10 ^ 9 := by
  obtain ⟨t, e, ht⟩ := C97_naive_partial ieee64_seq (N := 2) (gx := 0) (gy := 0) (Kx := 2) (Ky := 2) (r := 1 / 10 ^ 10)
    (m := 3 / 5) (x := fun i (_ : Fin 1) => corrX i) (y := fun i (_ : Fin 1) => corrY i) (by norm_num) (by norm_num)
    (by norm_num) (by norm_num) (by norm_num) (by norm_num) (by norm_num) (by norm_num) (fun i _ => (corr_within i).1)
    (fun i _ => (corr_within i).2) corrX_dist corrY_dist (by norm_num) (by rw [corrX_uVar]; norm_num)
    (by rw [corrY_uVar]; norm_num) (by rw [corrX_uVar]; norm_num) (by rw [corrY_uVar]; norm_num)
    (by rw [corrXY_uCor]; norm_num [abs_of_neg]) (by norm_num)
  rw [corrXY_uCor] at ht
  refine ⟨t, e, ?_⟩
  have h1 : √((1 : ℝ) - (3 / 5) ^ 2) = 4 / 5 := by
    rw [show (1 : ℝ) - (3 / 5) ^ 2 = (4 / 5) ^ 2 by norm_num]
    exact Real.sqrt_sq (by norm_num)
  rw [h1] at ht
  have h2 : √(((4 : ℕ) : ℝ) * (((4 : ℕ) : ℝ) - 3) / 2 - 1) = 1 := by norm_num
  have h3 : √((4 : ℝ) * (4 - 3) / 2 - 1) = 1 := by norm_num
  rw [h2] at ht
  rw [h3]
  refine ht.trans ?_
  norm_num

example {argsort : (Fin 4 → F64) → Equiv.Perm (Fin 4)}
    (hsort : ∀ v : Fin 4 → ℚ, Monotone fun i => v (argsort (fun i => fin (v i)) i)) :
    ∃ s t, (ieee64 sqrtSeq sumSeq dotSeq).avlStats true true argsort (fun i => fin (corrX i)) (fun i => fin (corrY i)) = .ok s ∧
      (ieee64 sqrtSeq sumSeq dotSeq).tStatistic 4 s.corr = fin t := by
  obtain ⟨s, t, e, et, -⟩ := C97_avl_partial ieee64_seq true hsort (N := 2) (gx := 0) (gy := 0) (Kx := 2) (Ky := 2)
    (r := 1 / 10 ^ 8) (m := 3 / 5) (x := corrX) (y := corrY) (X := 4) (Y := 3) (by norm_num) (by norm_num) (by norm_num)
    (by norm_num) (by norm_num) (by norm_num) (fun i => (corr_within i).1) (fun i => (corr_within i).2)
    (by decide +kernel) (by decide +kernel) (by decide +kernel) (by decide +kernel) (by norm_num)
    (by rw [corrX_uVar]; norm_num) (by rw [corrY_uVar]; norm_num) (by rw [corrX_uVar]; norm_num)
    (by rw [corrY_uVar]; norm_num) (by rw [corrXY_uCor]; norm_num [abs_of_neg]) (by norm_num)
  exact ⟨s, t, e, et⟩

end Dcor.Props

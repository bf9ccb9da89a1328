/-
The last steps of `partial_distance_correlation` in `float64`: correlations, square roots and the quotient.
-/
import Verif.Proofs.FloatCorr
import Verif.Proofs.Partial
import Verif.Model.RoundingTests

namespace Dcor

variable {sqrt : ℚ → ℚ} {sum : List ℚ → ℚ} {dot : List (ℚ × ℚ) → ℚ}

theorem round64_errR (q : ℚ) : |((round64 q : ℚ) : ℝ) - q| ≤ |(q : ℝ)| * (1 / 2 ^ 53) := by
  have he := (Rat.cast_le (K := ℝ)).2 (round64_err q)
  push_cast at he
  refine he.trans (le_of_eq ?_)
  ring

theorem ofInt_binary64 : (binary64 sqrt sum dot).ofInt 0 = 0 ∧ (binary64 sqrt sum dot).ofInt 1 = 1
    ∧ (binary64 sqrt sum dot).ofInt (-1) = -1 := by
  refine ⟨?_, ?_, ?_⟩
  · show round64 ((0 : ℤ) : ℚ) = 0; decide +kernel
  · show round64 ((1 : ℤ) : ℚ) = 1; decide +kernel
  · show round64 ((-1 : ℤ) : ℚ) = -1; decide +kernel

theorem sqrtClip_pos {w : ℚ} (hw : 0 < w) : (binary64 sqrt sum dot).sqrtClip w = sqrt w := by
  unfold Arith.sqrtClip
  rw [ofInt_binary64.1, if_neg]
  · rfl
  · show ¬ decide (w < 0) = true
    simp [hw.le]

theorem eqZero_binary64 {w : ℚ} (hw : w ≠ 0) : ¬ (binary64 sqrt sum dot).eqZero w = true := by
  unfold Arith.eqZero
  rw [ofInt_binary64.1]
  show ¬ decide (w = 0) = true
  simp [hw]

/-- Clipping to the interval from minus one to one does not increase the distance from a number in the interval. -/
theorem clip1_error {v : ℚ} {ρ : ℝ} (hρ : |ρ| ≤ 1) :
    |((binary64 sqrt sum dot).clip1 v : ℝ)| ≤ 1 ∧ |((binary64 sqrt sum dot).clip1 v : ℝ) - ρ| ≤ |(v : ℝ) - ρ| := by
  obtain ⟨h1, h2⟩ := abs_le.1 hρ
  unfold Arith.clip1
  rw [ofInt_binary64.2.1, ofInt_binary64.2.2]
  show |((if decide (v < -1) = true then -1 else if decide (1 < v) = true then 1 else v : ℚ) : ℝ)| ≤ 1 ∧
    |((if decide (v < -1) = true then -1 else if decide (1 < v) = true then 1 else v : ℚ) : ℝ) - ρ| ≤ |(v : ℝ) - ρ|
  simp only [decide_eq_true_eq]
  split_ifs with a b
  · have a' : (v : ℝ) < -1 := by exact_mod_cast a
    refine ⟨by norm_num, ?_⟩
    push_cast
    rw [abs_of_nonpos (by linarith), abs_of_nonpos (by linarith)]
    linarith
  · have b' : 1 < (v : ℝ) := by exact_mod_cast b
    refine ⟨by norm_num, ?_⟩
    push_cast
    rw [abs_of_nonneg (by linarith), abs_of_nonneg (by linarith)]
    linarith
  · have a' : -1 ≤ (v : ℝ) := by exact_mod_cast not_lt.1 a
    have b' : (v : ℝ) ≤ 1 := by exact_mod_cast not_lt.1 b
    exact ⟨abs_le.2 ⟨a', b'⟩, le_rfl⟩

/-- The clipped correlation is as close to the exact one as the correlation of `correlation_error`. -/
theorem clippedCorrelation_error (h : IsFloat64 sqrt sum dot) {c' vx' vy' : ℚ} {c vx vy r : ℝ} (hx0 : 0 < vx) (hy0 : 0 < vy)
    (hr : r ≤ 1 / 4) (hc : |(c' : ℝ) - c| ≤ r * Real.sqrt (vx * vy)) (hx : |(vx' : ℝ) - vx| ≤ r * vx)
    (hy : |(vy' : ℝ) - vy| ≤ r * vy) (hle : |c| ≤ Real.sqrt (vx * vy)) :
    |((binary64 sqrt sum dot).clippedCorrelation c' ((binary64 sqrt sum dot).mul vx' vy') : ℝ)| ≤ 1 ∧
    |((binary64 sqrt sum dot).clippedCorrelation c' ((binary64 sqrt sum dot).mul vx' vy') : ℝ) - Spec.ratio c vx vy|
      ≤ 3 * r + 6 / 2 ^ 53 := by
  have key := correlation_error h hx0 hy0 hr hc hx hy hle
  have hden := (denominator_error h hx0 hy0 hr hx hy).1
  have hD0 : 0 < Real.sqrt (vx * vy) := Real.sqrt_pos.2 (mul_pos hx0 hy0)
  have hratio : |Spec.ratio c vx vy| ≤ 1 := by
    unfold Spec.ratio
    rw [if_neg (mul_pos hx0 hy0).ne', abs_of_pos (mul_pos hx0 hy0), abs_div, abs_of_pos hD0, div_le_one hD0]
    exact hle
  have r0 : 0 ≤ r := nonneg_of_mul_nonneg_left ((abs_nonneg _).trans hx) hx0
  have px : (0 : ℝ) < vx' := by nlinarith [(abs_le.1 hx).1]
  have py : (0 : ℝ) < vy' := by nlinarith [(abs_le.1 hy).1]
  have hm : 0 < (binary64 sqrt sum dot).mul vx' vy' := by
    show 0 < round64 (vx' * vy')
    have h1 := (abs_le.1 (round64_errR (vx' * vy'))).1
    have hV := mul_pos px py
    push_cast at h1
    rw [abs_of_pos hV] at h1
    have : (0 : ℝ) < round64 (vx' * vy') := by nlinarith
    exact_mod_cast this
  have habs : (binary64 sqrt sum dot).abs ((binary64 sqrt sum dot).mul vx' vy') = (binary64 sqrt sum dot).mul vx' vy' :=
    abs_of_pos hm
  rw [habs] at key hden
  have hd : 0 < (binary64 sqrt sum dot).sqrtClip ((binary64 sqrt sum dot).mul vx' vy') := by
    have : (0 : ℝ) < (binary64 sqrt sum dot).sqrtClip ((binary64 sqrt sum dot).mul vx' vy') :=
      lt_of_lt_of_le (mul_pos (by norm_num; linarith) hD0) hden
    exact_mod_cast this
  rw [if_neg (eqZero_binary64 hd.ne')] at key
  unfold Arith.clippedCorrelation
  rw [if_neg (eqZero_binary64 hm.ne')]
  exact ⟨(clip1_error hratio).1, (clip1_error hratio).2.trans key⟩

/-- `1 - r ** 2` from a correlation with an error. -/
theorem one_sub_sq_error {q : ℚ} {a ε : ℝ} (hq : |(q : ℝ)| ≤ 1) (ha : |a| ≤ 1) (he : |(q : ℝ) - a| ≤ ε) :
    |((binary64 sqrt sum dot).sub ((binary64 sqrt sum dot).ofInt 1) ((binary64 sqrt sum dot).mul q q) : ℝ) - (1 - a * a)|
      ≤ 2 * ε + 3 * (1 / 2 ^ 53) := by
  rw [ofInt_binary64.2.1]
  show |((round64 (1 - round64 (q * q)) : ℚ) : ℝ) - (1 - a * a)| ≤ _
  have h1 := round64_errR (q * q)
  have h2 := round64_errR (1 - round64 (q * q))
  push_cast at h1 h2
  generalize ((round64 (1 - round64 (q * q)) : ℚ) : ℝ) = w at *
  generalize ((round64 (q * q) : ℚ) : ℝ) = s at *
  obtain ⟨u, hu⟩ : ∃ u : ℝ, u = 1 / 2 ^ 53 := ⟨_, rfl⟩
  have u0 : 0 < u := by rw [hu]; positivity
  have u1 : u ≤ 1 / 1000 := by rw [hu]; norm_num
  rw [← hu] at h1 h2 ⊢
  generalize (q : ℝ) = q at *
  have e1 : |q * q - a * a| ≤ 2 * ε := by
    have : q * q - a * a = (q - a) * (q + a) := by ring
    rw [this, abs_mul]
    have : |q + a| ≤ 2 := (abs_add_le _ _).trans (by linarith)
    calc _ ≤ ε * 2 := mul_le_mul he this (abs_nonneg _) ((abs_nonneg _).trans he)
      _ = _ := by ring
  have e2 : |q * q| ≤ 1 := by rw [abs_mul]; nlinarith [abs_nonneg q]
  have e3 : 0 ≤ q * q := mul_self_nonneg q
  have e4 : |q * q| * u ≤ u := by nlinarith
  have e5 : |1 - s| ≤ 1 + u := by
    obtain ⟨p1, p2⟩ := abs_le.1 h1
    rw [abs_of_nonneg e3] at e2 e4 p1 p2
    rw [abs_le]
    constructor <;> linarith
  have e6 : |1 - s| * u ≤ 2 * u := by nlinarith
  have p1 := abs_le.1 e1
  have p2 := abs_le.1 (h1.trans e4)
  have p3 := abs_le.1 (h2.trans e6)
  rw [abs_le]
  constructor <;> linarith

/-- The product of the two square roots, if the arguments have a relative error of at most `ρ`. -/
theorem root_product_error (h : IsFloat64 sqrt sum dot) {w v : ℚ} {W V ρ : ℝ} (hW : 0 < W) (hV : 0 < V) (hρ : ρ ≤ 1 / 8)
    (hw : |(w : ℝ) - W| ≤ ρ * W) (hv : |(v : ℝ) - V| ≤ ρ * V) :
    |((binary64 sqrt sum dot).mul ((binary64 sqrt sum dot).sqrtClip w) ((binary64 sqrt sum dot).sqrtClip v) : ℝ)
      - Real.sqrt W * Real.sqrt V| ≤ (ρ + 4 * (1 / 2 ^ 53)) * (Real.sqrt W * Real.sqrt V) := by
  have r0 : 0 ≤ ρ := nonneg_of_mul_nonneg_left ((abs_nonneg _).trans hw) hW
  obtain ⟨w1, w2⟩ := abs_le.1 hw
  obtain ⟨v1, v2⟩ := abs_le.1 hv
  have hw0 : (0 : ℝ) < w := by nlinarith
  have hv0 : (0 : ℝ) < v := by nlinarith
  have hw0' : 0 < w := by exact_mod_cast hw0
  have hv0' : 0 < v := by exact_mod_cast hv0
  rw [sqrtClip_pos hw0', sqrtClip_pos hv0']
  show |((round64 (sqrt w * sqrt v) : ℚ) : ℝ) - Real.sqrt W * Real.sqrt V| ≤ _
  have e1 := (h.sqrt _ hw0'.le).err
  have e2 := (h.sqrt _ hv0'.le).err
  have e3 := round64_errR (sqrt w * sqrt v)
  push_cast at e3
  generalize ((round64 (sqrt w * sqrt v) : ℚ) : ℝ) = d at *
  generalize ((sqrt w : ℚ) : ℝ) = s at *
  generalize ((sqrt v : ℚ) : ℝ) = t at *
  obtain ⟨u, hu⟩ : ∃ u : ℝ, u = 1 / 2 ^ 53 := ⟨_, rfl⟩
  have u0 : 0 < u := by rw [hu]; positivity
  have u1 : u ≤ 1 / 1000 := by rw [hu]; norm_num
  have dv : ∀ z : ℝ, z / 2 ^ 53 = z * u := fun z => by rw [hu]; ring
  rw [dv] at e1 e2
  rw [← hu] at e3 ⊢
  clear dv hu
  have S0 : 0 < Real.sqrt w := Real.sqrt_pos.2 hw0
  have T0 : 0 < Real.sqrt v := Real.sqrt_pos.2 hv0
  have hST : Real.sqrt w * Real.sqrt v = Real.sqrt (w * v) := (Real.sqrt_mul hw0.le _).symm
  have hD : Real.sqrt W * Real.sqrt V = Real.sqrt (W * V) := (Real.sqrt_mul hW.le _).symm
  have L : (1 - ρ) * Real.sqrt (W * V) ≤ Real.sqrt w * Real.sqrt v := by
    rw [hST]
    apply Real.le_sqrt_of_sq_le
    rw [mul_pow, Real.sq_sqrt (mul_pos hW hV).le]
    calc (1 - ρ) ^ 2 * (W * V) = ((1 - ρ) * W) * ((1 - ρ) * V) := by ring
      _ ≤ w * v := mul_le_mul (by linarith) (by linarith) (mul_nonneg (by linarith) hV.le) hw0.le
  have U : Real.sqrt w * Real.sqrt v ≤ (1 + ρ) * Real.sqrt (W * V) := by
    rw [hST]
    apply Real.sqrt_le_iff.2
    refine ⟨by positivity, ?_⟩
    rw [mul_pow, Real.sq_sqrt (mul_pos hW hV).le]
    calc (w * v : ℝ) ≤ ((1 + ρ) * W) * ((1 + ρ) * V) := mul_le_mul (by linarith) (by linarith) hv0.le (by positivity)
      _ = _ := by ring
  rw [hD]
  have D0 : 0 < Real.sqrt (W * V) := Real.sqrt_pos.2 (mul_pos hW hV)
  generalize Real.sqrt (W * V) = D at *
  generalize Real.sqrt (w : ℝ) = S at *
  generalize Real.sqrt (v : ℝ) = T at *
  clear hST hD
  obtain ⟨a1, a2⟩ := abs_le.1 e1
  obtain ⟨b1, b2⟩ := abs_le.1 e2
  have hs : 0 < s := by nlinarith
  have ht : 0 < t := by nlinarith
  have hst := mul_pos hs ht
  rw [abs_of_pos hst] at e3
  obtain ⟨c1, c2⟩ := abs_le.1 e3
  have P1 : (1 - u) ^ 2 * (S * T) ≤ s * t := by
    calc (1 - u) ^ 2 * (S * T) = ((1 - u) * S) * ((1 - u) * T) := by ring
      _ ≤ s * t := mul_le_mul (by linarith) (by linarith) (mul_nonneg (by linarith) T0.le) hs.le
  have P2 : s * t ≤ (1 + u) ^ 2 * (S * T) := by
    calc s * t ≤ ((1 + u) * S) * ((1 + u) * T) := mul_le_mul (by linarith) (by linarith) ht.le (by positivity)
      _ = _ := by ring
  have Q1 : (1 - ρ - 4 * u) * D ≤ d := by
    calc (1 - ρ - 4 * u) * D ≤ ((1 - u) ^ 3 * (1 - ρ)) * D := by
          apply mul_le_mul_of_nonneg_right _ D0.le
          have : (1 - u) ^ 3 = 1 - 3 * u + u ^ 2 * (3 - u) := by ring
          have k : 0 ≤ u ^ 2 * (3 - u) := mul_nonneg (sq_nonneg u) (by linarith)
          rw [this]
          nlinarith [mul_nonneg r0 u0.le, mul_nonneg k (by linarith : 0 ≤ 1 - ρ)]
      _ = (1 - u) ^ 3 * ((1 - ρ) * D) := by ring
      _ ≤ (1 - u) ^ 3 * (S * T) := mul_le_mul_of_nonneg_left L (pow_nonneg (by linarith) 3)
      _ = (1 - u) * ((1 - u) ^ 2 * (S * T)) := by ring
      _ ≤ (1 - u) * (s * t) := mul_le_mul_of_nonneg_left P1 (by linarith)
      _ ≤ d := by linarith
  have Q2 : d ≤ (1 + ρ + 4 * u) * D := by
    calc d ≤ (1 + u) * (s * t) := by linarith
      _ ≤ (1 + u) * ((1 + u) ^ 2 * (S * T)) := mul_le_mul_of_nonneg_left P2 (by linarith)
      _ = (1 + u) ^ 3 * (S * T) := by ring
      _ ≤ (1 + u) ^ 3 * ((1 + ρ) * D) := mul_le_mul_of_nonneg_left U (by positivity)
      _ = ((1 + u) ^ 3 * (1 + ρ)) * D := by ring
      _ ≤ (1 + ρ + 4 * u) * D := by
          apply mul_le_mul_of_nonneg_right _ D0.le
          have k : (1 + u) ^ 3 ≤ 1 + 3 * u + 4 / 1000 * u := by nlinarith [mul_le_mul_of_nonneg_right u1 u0.le, mul_le_mul_of_nonneg_right u1 (sq_nonneg u)]
          nlinarith [mul_le_mul_of_nonneg_right hρ u0.le]
  rw [abs_le]
  constructor <;> linarith

/-- The quotient of a numerator and a denominator with errors. -/
theorem partial_quotient_error {N M d D z ε u δ η : ℝ} (ε0 : 0 ≤ ε) (u0 : 0 < u) (u1' : u ≤ 1 / 1000) (hδ : 0 < δ) (δ1 : δ ≤ 1)
    (Dδ : δ ≤ D) (hη : η = 2 * ε + 3 * u) (hε : 8 * η ≤ δ) (hNn : |N - M| ≤ 3 * ε + 4 * u) (hN : |M| ≤ D) (hd0 : 0 < d)
    (hd : |d - D| ≤ (η / δ + 4 * u) * D) (f3 : |z - N / d| ≤ |N / d| * u) :
    |z - M / D| ≤ (8 * ε + 20 * u) / δ := by
  have D0 : 0 < D := hδ.trans_le Dδ
  have η0 : 0 ≤ η := by rw [hη]; positivity
  have hρ : η / δ ≤ 1 / 8 := by rw [div_le_iff₀ hδ]; linarith
  obtain ⟨ρ, hρ'⟩ : ∃ ρ : ℝ, ρ = η / δ := ⟨_, rfl⟩
  rw [← hρ'] at hρ hd
  have ρ0 : 0 ≤ ρ := by rw [hρ']; positivity
  have k1 : |N * D - M * d| ≤ (3 * ε + 4 * u) * D + (ρ + 4 * u) * D * D := by
    calc |N * D - M * d| = |(N - M) * D + M * (D - d)| := by ring_nf
      _ ≤ |(N - M) * D| + |M * (D - d)| := abs_add_le _ _
      _ = |N - M| * D + |M| * |d - D| := by rw [abs_mul, abs_mul, abs_of_pos D0, abs_sub_comm D]
      _ ≤ (3 * ε + 4 * u) * D + D * ((ρ + 4 * u) * D) :=
          add_le_add (mul_le_mul_of_nonneg_right hNn D0.le) (mul_le_mul hN hd (abs_nonneg _) D0.le)
      _ = _ := by ring
  have dl : 5 / 6 * D ≤ d := by nlinarith [(abs_le.1 hd).1]
  have k2 : |N / d - M / D| ≤ 6 / 5 * ((3 * ε + 4 * u) / δ + ρ + 4 * u) := by
    have e : N / d - M / D = (N * D - M * d) / (d * D) := by field_simp
    rw [e, abs_div, abs_of_pos (mul_pos hd0 D0), div_le_iff₀ (mul_pos hd0 D0)]
    have q : 3 * ε + 4 * u ≤ (3 * ε + 4 * u) / δ * D := by
      rw [div_mul_eq_mul_div, le_div_iff₀ hδ]
      exact mul_le_mul_of_nonneg_left Dδ (by positivity)
    have q0 : 0 ≤ (3 * ε + 4 * u) / δ := by positivity
    calc _ ≤ _ := k1
      _ ≤ (3 * ε + 4 * u) / δ * D * D + (ρ + 4 * u) * D * D := by
          have := mul_le_mul_of_nonneg_right q D0.le
          linarith
      _ = 6 / 5 * ((3 * ε + 4 * u) / δ + ρ + 4 * u) * (5 / 6 * D * D) := by ring
      _ ≤ 6 / 5 * ((3 * ε + 4 * u) / δ + ρ + 4 * u) * (d * D) := by
          apply mul_le_mul_of_nonneg_left _ (by positivity)
          exact mul_le_mul_of_nonneg_right dl D0.le
  have k3 : 6 / 5 * ((3 * ε + 4 * u) / δ + ρ + 4 * u) ≤ (6 * ε + 13.5 * u) / δ := by
    rw [hρ', hη]
    have : 4 * u ≤ 4 * u / δ := by
      rw [le_div_iff₀ hδ]; nlinarith
    calc _ ≤ 6 / 5 * ((3 * ε + 4 * u) / δ + (2 * ε + 3 * u) / δ + 4 * u / δ) := by linarith
      _ = (6 * ε + 13.2 * u) / δ := by ring
      _ ≤ _ := div_le_div_of_nonneg_right (by linarith) hδ.le
  have k4 : (6 * ε + 13.5 * u) / δ ≤ 1 := by
    rw [div_le_one hδ]
    rw [hη] at hε
    linarith
  have k5 : |M / D| ≤ 1 := by rw [abs_div, abs_of_pos D0, div_le_one D0]; exact hN
  have k6 : |N / d| ≤ 2 := by
    calc |N / d| = |(N / d - M / D) + M / D| := by ring_nf
      _ ≤ |N / d - M / D| + |M / D| := abs_add_le _ _
      _ ≤ 1 + 1 := add_le_add ((k2.trans k3).trans k4) k5
      _ = 2 := by norm_num
  have k7 : |N / d| * u ≤ 2 * u / δ := by
    rw [le_div_iff₀ hδ]
    have := mul_le_mul_of_nonneg_right k6 u0.le
    nlinarith [mul_nonneg (abs_nonneg (N / d)) u0.le]
  calc |z - M / D| = |(z - N / d) + (N / d - M / D)| := by ring_nf
    _ ≤ |z - N / d| + |N / d - M / D| := abs_add_le _ _
    _ ≤ 2 * u / δ + (6 * ε + 13.5 * u) / δ := add_le_add (f3.trans k7) (k2.trans k3)
    _ = (6 * ε + 15.5 * u) / δ := by ring
    _ ≤ _ := div_le_div_of_nonneg_right (by linarith) hδ.le

/-- The partial correlation from the three correlations. -/
theorem partialFromCorrelations_error (h : IsFloat64 sqrt sum dot) {rxy rxz ryz : ℚ} {c a b ε δ : ℝ}
    (h1 : |(rxy : ℝ)| ≤ 1) (h2 : |(rxz : ℝ)| ≤ 1) (h3 : |(ryz : ℝ)| ≤ 1) (ha : |a| ≤ 1) (hb : |b| ≤ 1)
    (e1 : |(rxy : ℝ) - c| ≤ ε) (e2 : |(rxz : ℝ) - a| ≤ ε) (e3 : |(ryz : ℝ) - b| ≤ ε) (hδ : 0 < δ)
    (hda : δ ≤ 1 - a * a) (hdb : δ ≤ 1 - b * b) (hε : 8 * (2 * ε + 3 * (1 / 2 ^ 53)) ≤ δ)
    (hN : |c - a * b| ≤ Real.sqrt (1 - a * a) * Real.sqrt (1 - b * b)) :
    |((binary64 sqrt sum dot).partialFromCorrelations rxy rxz ryz : ℝ)
      - (c - a * b) / (Real.sqrt (1 - a * a) * Real.sqrt (1 - b * b))| ≤ (8 * ε + 20 * (1 / 2 ^ 53)) / δ := by
  have ε0 : 0 ≤ ε := (abs_nonneg _).trans e1
  have hA : 0 < 1 - a * a := by linarith
  have hB : 0 < 1 - b * b := by linarith
  obtain ⟨η, hη⟩ : ∃ η : ℝ, η = 2 * ε + 3 * (1 / 2 ^ 53) := ⟨_, rfl⟩
  have wA := (one_sub_sq_error (sqrt := sqrt) (sum := sum) (dot := dot) h2 ha e2)
  have wB := (one_sub_sq_error (sqrt := sqrt) (sum := sum) (dot := dot) h3 hb e3)
  rw [← hη] at wA wB hε
  have η0 : 0 ≤ η := (abs_nonneg _).trans wA
  have step : ∀ t : ℝ, δ ≤ t → η ≤ η / δ * t := by
    intro t ht
    rw [div_mul_eq_mul_div, le_div_iff₀ hδ]
    exact mul_le_mul_of_nonneg_left ht η0
  have hρ : η / δ ≤ 1 / 8 := by rw [div_le_iff₀ hδ]; linarith
  have hd := root_product_error h hA hB hρ (wA.trans (step _ hda)) (wB.trans (step _ hdb))
  have D0 : 0 < Real.sqrt (1 - a * a) * Real.sqrt (1 - b * b) := mul_pos (Real.sqrt_pos.2 hA) (Real.sqrt_pos.2 hB)
  have Dδ : δ ≤ Real.sqrt (1 - a * a) * Real.sqrt (1 - b * b) := by
    have k1 : Real.sqrt δ ≤ Real.sqrt (1 - a * a) := Real.sqrt_le_sqrt hda
    have k2 : Real.sqrt δ ≤ Real.sqrt (1 - b * b) := Real.sqrt_le_sqrt hdb
    calc δ = Real.sqrt δ * Real.sqrt δ := (Real.mul_self_sqrt hδ.le).symm
      _ ≤ _ := mul_le_mul k1 k2 (Real.sqrt_nonneg _) (Real.sqrt_nonneg _)
  have δ1 : δ ≤ 1 := by nlinarith [mul_self_nonneg a]
  unfold Arith.partialFromCorrelations
  dsimp only
  generalize (binary64 sqrt sum dot).mul ((binary64 sqrt sum dot).sqrtClip ((binary64 sqrt sum dot).sub
    ((binary64 sqrt sum dot).ofInt 1) ((binary64 sqrt sum dot).mul rxz rxz))) ((binary64 sqrt sum dot).sqrtClip
    ((binary64 sqrt sum dot).sub ((binary64 sqrt sum dot).ofInt 1) ((binary64 sqrt sum dot).mul ryz ryz))) = d at *
  generalize Real.sqrt (1 - a * a) * Real.sqrt (1 - b * b) = D at *
  have u1' : (1 / 2 ^ 53 : ℝ) ≤ 1 / 1000 := by norm_num
  have hd0 : (0 : ℝ) < d := by nlinarith [(abs_le.1 hd).1]
  have hd0' : 0 < d := by exact_mod_cast hd0
  rw [if_neg (eqZero_binary64 hd0'.ne')]
  show |((round64 (round64 (rxy - round64 (rxz * ryz)) / d) : ℚ) : ℝ) - (c - a * b) / D| ≤ _
  have f1 := round64_errR (rxz * ryz)
  have f2 := round64_errR (rxy - round64 (rxz * ryz))
  have f3 := round64_errR (round64 (rxy - round64 (rxz * ryz)) / d)
  push_cast at f1 f2 f3
  generalize ((round64 (round64 (rxy - round64 (rxz * ryz)) / d) : ℚ) : ℝ) = z at *
  generalize ((round64 (rxy - round64 (rxz * ryz)) : ℚ) : ℝ) = N at *
  generalize ((round64 (rxz * ryz) : ℚ) : ℝ) = m at *
  obtain ⟨u, hu⟩ : ∃ u : ℝ, u = 1 / 2 ^ 53 := ⟨_, rfl⟩
  have u0 : 0 < u := by rw [hu]; positivity
  rw [← hu] at f1 f2 f3 u1' hη hd ⊢
  clear hu
  generalize (rxy : ℝ) = x at *
  generalize (rxz : ℝ) = y at *
  generalize (ryz : ℝ) = w at *
  generalize (d : ℝ) = d at *
  -- numerator
  have g1 : |y * w - a * b| ≤ 2 * ε := by
    calc |y * w - a * b| = |(y - a) * w + a * (w - b)| := by ring_nf
      _ ≤ |(y - a) * w| + |a * (w - b)| := abs_add_le _ _
      _ = |y - a| * |w| + |a| * |w - b| := by rw [abs_mul, abs_mul]
      _ ≤ ε * 1 + 1 * ε := add_le_add (mul_le_mul e2 h3 (abs_nonneg _) ε0) (mul_le_mul ha e3 (abs_nonneg _) one_pos.le)
      _ = _ := by ring
  have g2 : |y * w| ≤ 1 := by
    rw [abs_mul]
    exact mul_le_one₀ h2 (abs_nonneg _) h3
  have g3 : |y * w| * u ≤ u := by nlinarith
  have g4 : |m| ≤ 1 + u := by
    calc |m| = |(m - y * w) + y * w| := by ring_nf
      _ ≤ |m - y * w| + |y * w| := abs_add_le _ _
      _ ≤ u + 1 := add_le_add (f1.trans g3) g2
      _ = _ := by ring
  have g5 : |x - m| * u ≤ 3 * u := by
    have : |x - m| ≤ 3 := (abs_sub _ _).trans (by linarith)
    exact mul_le_mul_of_nonneg_right this u0.le
  have hNn : |N - (c - a * b)| ≤ 3 * ε + 4 * u := by
    have p1 := abs_le.1 g1
    have p2 := abs_le.1 (f1.trans g3)
    have p3 := abs_le.1 (f2.trans g5)
    have p4 := abs_le.1 e1
    rw [abs_le]
    constructor <;> linarith
  generalize c - a * b = M at *
  exact partial_quotient_error ε0 u0 u1' hδ δ1 Dδ hη hε hNn hN hd0 hd f3

/-- The partial distance correlation in terms of the correlations. -/
theorem partial_value (s u v : ℝ) : partialFromCorrelations (.fin s) (.fin u) (.fin v)
      = .fin (if Real.sqrt (1 - u * u) * Real.sqrt (1 - v * v) = 0 then 0
          else (s - u * v) / (Real.sqrt (1 - u * u) * Real.sqrt (1 - v * v))) := by
  have hden : sqrtClip (.fin 1 - .fin u * .fin u) * sqrtClip (.fin 1 - .fin v * .fin v)
      = FP.fin (Real.sqrt (1 - u * u) * Real.sqrt (1 - v * v)) := by
    simp only [FP.fin_mul, FP.fin_sub, sqrtClip_fin]
  unfold partialFromCorrelations
  simp only [hden]
  by_cases h : Real.sqrt (1 - u * u) * Real.sqrt (1 - v * v) = 0
  · have h' : (FP.fin (Real.sqrt (1 - u * u) * Real.sqrt (1 - v * v)) : FP ℝ).IsZero := h
    rw [if_pos h', if_pos h, h]
  · have h' : ¬ (FP.fin (Real.sqrt (1 - u * u) * Real.sqrt (1 - v * v)) : FP ℝ).IsZero := h
    rw [if_neg h', if_neg h, FP.fin_mul, FP.fin_sub, FP.fin_div _ h]

end Dcor

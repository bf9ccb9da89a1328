/-
Rounding errors of the t statistic.
-/
import Verif.Proofs.FloatTTest
import Verif.Proofs.TTest

set_option exponentiation.threshold 1100

namespace Dcor

namespace F64

/-- Error of a rounded number, with gradual underflow. -/
theorem roundNum_err (q : ℚ) : |roundNum q - q| ≤ |q| / 2 ^ 53 + 1 / 2 ^ 1074 := by
  unfold roundNum
  split_ifs with h
  · obtain ⟨z, hz, e⟩ := roundTiny_eq q
    have h1 : |roundTiny q - q| ≤ 1 / 2 ^ 1074 := by
      have h2 := rneQ_err (|q| * 2 ^ 1074)
      rw [← hz] at h2
      have h3 : |(z : ℚ) / 2 ^ 1074 - (|q|)| ≤ 1 / 2 ^ 1074 := by
        have : (z : ℚ) / 2 ^ 1074 - |q| = (z - |q| * 2 ^ 1074) / 2 ^ 1074 := by
          field_simp
        rw [this, abs_div, abs_of_pos (show (0 : ℚ) < 2 ^ 1074 by positivity)]
        exact div_le_div_of_nonneg_right (h2.trans (by norm_num)) (by positivity)
      rw [e]
      split_ifs with h4
      · rw [abs_of_neg h4] at h3
        rw [← abs_neg]
        convert h3 using 2
        ring
      · rw [abs_of_nonneg (not_lt.1 h4)] at h3
        exact h3
    have : 0 ≤ |q| / 2 ^ 53 := by positivity
    linarith
  · have : (0 : ℚ) ≤ 1 / 2 ^ 1074 := by positivity
    linarith [round64_err q]

end F64

open F64

/-- The exact statistic changes little with the correlation. -/
theorem tRatio_lipschitz {r ρ m : ℝ} (hm : m < 1) (hr : |r| ≤ m) (hρ : |ρ| ≤ m) :
    |r / √(1 - r ^ 2) - ρ / √(1 - ρ ^ 2)| ≤ |r - ρ| / ((1 - m ^ 2) * √(1 - m ^ 2)) := by
  have m0 : 0 ≤ m := (abs_nonneg r).trans hr
  have key : ∀ {a : ℝ}, |a| ≤ m → 1 - m ^ 2 ≤ 1 - a ^ 2 := fun {a} ha => by
    have := sq_le_sq' (abs_le.1 ha).1 (abs_le.1 ha).2
    linarith
  have hδ : 0 < 1 - m ^ 2 := by nlinarith
  obtain ⟨δ, hδe⟩ : ∃ δ, δ = √(1 - m ^ 2) := ⟨_, rfl⟩
  obtain ⟨a, hae⟩ : ∃ a, a = √(1 - r ^ 2) := ⟨_, rfl⟩
  obtain ⟨b, hbe⟩ : ∃ b, b = √(1 - ρ ^ 2) := ⟨_, rfl⟩
  have δ0 : 0 < δ := by rw [hδe]; exact Real.sqrt_pos.2 hδ
  have da : δ ≤ a := by rw [hδe, hae]; exact Real.sqrt_le_sqrt (key hr)
  have db : δ ≤ b := by rw [hδe, hbe]; exact Real.sqrt_le_sqrt (key hρ)
  have δ2 : δ ^ 2 = 1 - m ^ 2 := by rw [hδe]; exact Real.sq_sqrt hδ.le
  have a2 : a ^ 2 = 1 - r ^ 2 := by rw [hae]; exact Real.sq_sqrt (hδ.le.trans (key hr))
  have b2 : b ^ 2 = 1 - ρ ^ 2 := by rw [hbe]; exact Real.sq_sqrt (hδ.le.trans (key hρ))
  rw [← hδe, ← hae, ← hbe, ← δ2]
  have a0 : 0 < a := δ0.trans_le da
  have b0 : 0 < b := δ0.trans_le db
  have e : r / a - ρ / b = (r - ρ) * (1 / a + ρ * (r + ρ) / (a * b * (a + b))) := by
    have hab : (b - a) * (a + b) = (r - ρ) * (r + ρ) := by nlinarith
    have h1 : r / a - ρ / b = (r - ρ) / a + ρ * ((b - a) / (a * b)) := by
      field_simp
      ring
    have h2 : (b - a) / (a * b) = (r - ρ) * (r + ρ) / (a * b * (a + b)) := by
      rw [← hab]
      field_simp
    rw [h1, h2]
    ring
  have h3 : |1 / a + ρ * (r + ρ) / (a * b * (a + b))| ≤ 1 / (δ ^ 2 * δ) := by
    have h4 : |ρ * (r + ρ)| ≤ 2 * m ^ 2 := by
      rw [abs_mul]
      have := (abs_add_le r ρ).trans (add_le_add hr hρ)
      nlinarith [abs_nonneg ρ, abs_nonneg (r + ρ)]
    have h5 : δ * δ * (δ + δ) ≤ a * b * (a + b) :=
      mul_le_mul (mul_le_mul da db δ0.le a0.le) (add_le_add da db) (by positivity) (by positivity)
    have h6 : |ρ * (r + ρ) / (a * b * (a + b))| ≤ 2 * m ^ 2 / (δ * δ * (δ + δ)) := by
      rw [abs_div, abs_of_pos (show 0 < a * b * (a + b) by positivity)]
      exact div_le_div₀ (by positivity) h4 (by positivity) h5
    have h7 : |1 / a| ≤ 1 / δ := by
      rw [abs_of_pos (by positivity)]
      exact one_div_le_one_div_of_le δ0 da
    have h8 : 1 / δ + 2 * m ^ 2 / (δ * δ * (δ + δ)) = 1 / (δ ^ 2 * δ) := by
      have : m ^ 2 = 1 - δ ^ 2 := by linarith
      rw [this]
      field_simp
      ring
    calc _ ≤ |1 / a| + |ρ * (r + ρ) / (a * b * (a + b))| := abs_add_le _ _
      _ ≤ 1 / δ + 2 * m ^ 2 / (δ * δ * (δ + δ)) := add_le_add h7 h6
      _ = _ := h8
  rw [e, abs_mul, div_eq_mul_one_div |r - ρ|]
  exact mul_le_mul_of_nonneg_left h3 (abs_nonneg _)

/-- Error of the denominator relative to the exact root `g`. -/
theorem tDenom_close {g w d u : ℝ} (hu0 : 0 ≤ u) (g0 : 0 < g) (g1 : g ≤ 1) (hgu : 1000 * u ≤ g ^ 2)
    (hw : |w - g ^ 2| ≤ 1.01 * u) (hd : |d - √w| ≤ √w * u) : |d - g| ≤ 2.1 * u / g ^ 2 * g := by
  have hg2 : 0 < g ^ 2 := by positivity
  have hw1 := abs_le.1 hw
  have w0 : 0 ≤ w := by linarith
  obtain ⟨v, hv⟩ : ∃ v, v = √w := ⟨_, rfl⟩
  have v0 : 0 ≤ v := by rw [hv]; exact Real.sqrt_nonneg w
  have v2 : v ^ 2 = w := by rw [hv]; exact Real.sq_sqrt w0
  rw [← hv] at hd
  have h1 : |v - g| ≤ 1.01 * u / g := by
    rw [le_div_iff₀ g0]
    have : |v - g| * (v + g) = |w - g ^ 2| := by
      rw [← v2, show v ^ 2 - g ^ 2 = (v - g) * (v + g) by ring, abs_mul, abs_of_nonneg (show 0 ≤ v + g by linarith)]
    nlinarith [abs_nonneg (v - g)]
  have e : 2.1 * u / g ^ 2 * g = 2.1 * u / g := by field_simp
  have h2 : v ≤ g + 1.01 * u / g := by linarith [(abs_le.1 h1).2]
  have h3 : |d - g| ≤ v * u + 1.01 * u / g := by
    calc |d - g| = |(d - v) + (v - g)| := by ring_nf
      _ ≤ _ := (abs_add_le _ _).trans (add_le_add hd h1)
  rw [e]
  have h4 : 1.01 * u / g ≤ 0.00101 * g := by
    rw [div_le_iff₀ g0]
    nlinarith
  have h5 : g ≤ 1 / g := by
    rw [le_div_iff₀ g0]
    nlinarith
  have h6 : v * u ≤ 1.00101 * (u / g) := by
    have : v ≤ 1.00101 * (1 / g) := by linarith
    calc v * u ≤ 1.00101 * (1 / g) * u := mul_le_mul_of_nonneg_right this hu0
      _ = _ := by ring
  have h7 : 0 ≤ u / g := by positivity
  have e1 : 1.01 * u / g = 1.01 * (u / g) := by ring
  have e2 : 2.1 * u / g = 2.1 * (u / g) := by ring
  rw [e1] at h3
  rw [e2]
  linarith

/-- Error of the quotient. -/
theorem tQuotient_close {g d u a σ r τ : ℝ} (hu0 : 0 < u) (hu : u ≤ 1 / 1000) (g0 : 0 < g) (g1 : g ≤ 1)
    (hgu : 1000 * u ≤ g ^ 2) (hd : |d - g| ≤ 2.1 * u / g ^ 2 * g) (σ1 : 1 ≤ σ) (r0 : 0 ≤ r) (r1 : r ≤ 1) (hτ0 : 0 ≤ τ)
    (hτ : τ ≤ u / 1000) (ha : |a - σ * r| ≤ 2.01 * u * σ * r + τ) :
    |a / d - σ * (r / g)| ≤ 4.3 * u * (σ / (g ^ 2 * g)) ∧ 0 < d := by
  have hg2 : 0 < g ^ 2 := by positivity
  obtain ⟨η, hη⟩ : ∃ η, η = 2.1 * u / g ^ 2 := ⟨_, rfl⟩
  rw [← hη] at hd
  have η0 : 0 ≤ η := by rw [hη]; positivity
  have η1 : η ≤ 0.0021 := by
    rw [hη, div_le_iff₀ hg2]
    linarith
  have hd1 := abs_le.1 hd
  have dlow : 0.9979 * g ≤ d := by nlinarith
  have d0 : 0 < d := lt_of_lt_of_le (by positivity) dlow
  refine ⟨?_, d0⟩
  have e : a / d - σ * (r / g) = (a - σ * r) / d + σ * r * ((g - d) / (g * d)) := by
    field_simp
    ring
  have hσr : 0 ≤ σ * r := by positivity
  have h1 : |(a - σ * r) / d| ≤ (2.01 * u * σ * r + τ) / (0.9979 * g) := by
    rw [abs_div, abs_of_pos d0]
    exact div_le_div₀ (by positivity) ha (by positivity) dlow
  have h2 : |σ * r * ((g - d) / (g * d))| ≤ σ * r * (η / (0.9979 * g)) := by
    rw [abs_mul, abs_of_nonneg hσr, abs_div, abs_of_pos (show 0 < g * d by positivity), abs_sub_comm]
    refine mul_le_mul_of_nonneg_left ?_ hσr
    rw [div_le_div_iff₀ (by positivity) (by positivity)]
    calc |d - g| * (0.9979 * g) ≤ η * g * d := mul_le_mul hd dlow (by positivity) (by positivity)
      _ = _ := by ring
  have hk : (2.01 * u * σ * r + τ) / (0.9979 * g) + σ * r * (η / (0.9979 * g)) ≤ 4.3 * u * (σ / (g ^ 2 * g)) := by
    have e1 : (2.01 * u * σ * r + τ) / (0.9979 * g) + σ * r * (η / (0.9979 * g))
        = (2.01 * u * σ * r + τ + σ * r * η) / (0.9979 * g) := by
      field_simp
    have e2 : 4.3 * u * (σ / (g ^ 2 * g)) = (4.3 * u * σ / g ^ 2) / g := by
      field_simp
    rw [e1, e2, div_le_div_iff₀ (by positivity) g0]
    have b1 : σ * r ≤ σ := by nlinarith
    have b2 : u * σ ≤ u * σ / g ^ 2 := by
      rw [le_div_iff₀ hg2]
      have : g ^ 2 ≤ 1 := pow_le_one₀ g0.le g1
      have : 0 ≤ u * σ := by positivity
      nlinarith
    have b3 : σ * r * η ≤ 2.1 * (u * σ / g ^ 2) := by
      rw [hη]
      have : σ * (2.1 * u / g ^ 2) = 2.1 * (u * σ / g ^ 2) := by ring
      rw [← this]
      exact mul_le_mul_of_nonneg_right b1 (by positivity)
    have b4 : 2.01 * u * σ * r ≤ 2.01 * (u * σ / g ^ 2) := by
      calc 2.01 * u * σ * r = 2.01 * u * (σ * r) := by ring
        _ ≤ 2.01 * u * σ := mul_le_mul_of_nonneg_left b1 (by positivity)
        _ ≤ _ := by linarith
    have b5 : τ ≤ 0.001 * (u * σ / g ^ 2) := by
      have : u ≤ u * σ := by nlinarith
      linarith
    have b6 : 0 ≤ u * σ / g ^ 2 := by positivity
    have e3 : 4.3 * u * σ / g ^ 2 = 4.3 * (u * σ / g ^ 2) := by ring
    rw [e3]
    nlinarith
  rw [e]
  exact ((abs_add_le _ _).trans (add_le_add h1 h2)).trans hk

/-- Error of the last steps. -/
theorem tQuotient_round {g d u a σ r τ s t : ℝ} (u0 : 0 < u) (u1 : u ≤ 1 / 1000) (g0 : 0 < g) (g1 : g ≤ 1)
    (hgu : 1000 * u ≤ g ^ 2) (dc : |d - g| ≤ 2.1 * u / g ^ 2 * g) (σ1 : 1 ≤ σ) (r0 : 0 ≤ r) (r1 : r ≤ 1) (τ0 : 0 ≤ τ)
    (τu : τ ≤ u / 1000) (hs : |s - σ| ≤ σ * u) (ea : |a - s * r| ≤ s * r * u + τ) (et : |t - a / d| ≤ |a / d| * u + τ) :
    |t - σ * (r / g)| ≤ 6 * u * (σ / (g ^ 2 * g)) := by
  have eaσ : |a - σ * r| ≤ 2.01 * u * σ * r + τ := by
    have h1 : |s * r - σ * r| ≤ σ * u * r := by
      rw [← sub_mul, abs_mul, abs_of_nonneg r0]
      exact mul_le_mul_of_nonneg_right hs r0
    have h2 : s * r * u ≤ 1.01 * (σ * u * r) := by
      have h3 : s ≤ 1.01 * σ := by nlinarith [(abs_le.1 hs).2]
      calc s * r * u = s * (r * u) := by ring
        _ ≤ 1.01 * σ * (r * u) := mul_le_mul_of_nonneg_right h3 (by positivity)
        _ = _ := by ring
    calc |a - σ * r| = |(a - s * r) + (s * r - σ * r)| := by ring_nf
      _ ≤ (s * r * u + τ) + σ * u * r := (abs_add_le _ _).trans (add_le_add ea h1)
      _ ≤ (1.01 * (σ * u * r) + τ) + σ * u * r := by linarith
      _ = _ := by ring
  obtain ⟨q1, d0⟩ := tQuotient_close u0 u1 g0 g1 hgu dc σ1 r0 r1 τ0 τu eaσ
  obtain ⟨Y, hY⟩ : ∃ Y, Y = σ / (g ^ 2 * g) := ⟨_, rfl⟩
  obtain ⟨b, hb⟩ : ∃ b, b = a / d := ⟨_, rfl⟩
  obtain ⟨c, hc⟩ : ∃ c, c = σ * (r / g) := ⟨_, rfl⟩
  have g21 : g ^ 2 ≤ 1 := pow_le_one₀ g0.le g1
  have g3 : g ^ 2 * g ≤ 1 := mul_le_one₀ g21 g0.le g1
  have Y1 : 1 ≤ Y := by
    rw [hY, le_div_iff₀ (by positivity)]
    linarith
  have hfin : c ≤ Y := by
    rw [hY, hc, le_div_iff₀ (by positivity)]
    have e : σ * (r / g) * (g ^ 2 * g) = σ * (r * g ^ 2) := by field_simp
    have : r * g ^ 2 ≤ 1 := mul_le_one₀ r1 (by positivity) g21
    rw [e]
    exact mul_le_of_le_one_right (by linarith) this
  have hfin0 : 0 ≤ c := by rw [hc]; positivity
  rw [← hY, ← hb, ← hc] at q1
  rw [← hb] at et
  rw [← hY, ← hc]
  have uY : 0 ≤ u * Y := by positivity
  have h8 : u ≤ u * Y := le_mul_of_one_le_right u0.le Y1
  have h9 : u * Y ≤ 0.001 * Y := by nlinarith
  have hbb : |b| ≤ 1.01 * Y := by
    have := abs_le.1 q1
    rw [abs_le]
    constructor <;> linarith
  have h6 : |b| * u ≤ 1.01 * Y * u := mul_le_mul_of_nonneg_right hbb u0.le
  have e1 := abs_le.1 et
  have e2 := abs_le.1 q1
  rw [abs_le]
  constructor <;> linarith

variable {n : ℕ} {sqrt : F64 → F64} {sum : List F64 → F64} {dot : List (F64 × F64) → F64}

/-- The degrees of freedom of up to `2 ** 26` observations are exact. -/
theorem tDegrees_exact (hn : 3 < n) (hn2 : n ≤ 2 ^ 26) :
    (ieee64 sqrt sum dot).tDegrees n = fin ((n : ℚ) * (n - 3) / 2 - 1) := by
  have nb : (n : ℤ) ≤ 2 ^ 26 := by exact_mod_cast hn2
  have n4 : (4 : ℤ) ≤ n := by exact_mod_cast hn
  have hb : (n : ℤ) * ((n : ℤ) - 3) ≤ 2 ^ 52 := by nlinarith
  have hl : (4 : ℤ) ≤ (n : ℤ) * ((n : ℤ) - 3) := by nlinarith
  have key : ∀ z : ℤ, 0 < z → z ≤ 2 ^ 52 → F64.round ((z : ℚ) / 2) = fin ((z : ℚ) / 2) := by
    intro z h0 h1
    have hz : (1 : ℚ) ≤ z := by exact_mod_cast h0
    have hz1 : (z : ℚ) ≤ 2 ^ 52 := by exact_mod_cast h1
    have e : roundNum ((z : ℚ) / 2) = (z : ℚ) / 2 := by
      rw [roundNum_float]
      · have := round64_fixed (m := z) (k := -1) (by rw [abs_of_pos h0]; omega)
        rw [zpow_neg_one] at this
        exact this
      · rw [abs_of_pos (by positivity)]
        refine le_trans ?_ (show (1 : ℚ) / 2 ≤ z / 2 by linarith)
        norm_num
    rw [round_fin, e]
    rw [e, abs_of_pos (by positivity)]
    refine lt_of_le_of_lt (show (z : ℚ) / 2 ≤ 2 ^ 52 by linarith) (by norm_num)
  unfold Arith.tDegrees Arith.idiv
  rw [ieee_one]
  have h2 : (ieee64 sqrt sum dot).ofInt 2 = fin 2 := by
    show F64.round ((2 : ℤ) : ℚ) = fin 2
    decide +kernel
  have h3 : (ieee64 sqrt sum dot).ofInt ((n : ℤ) * ((n : ℤ) - 3)) = fin (((n : ℤ) * ((n : ℤ) - 3) : ℤ) : ℚ) := by
    show F64.round (((n : ℤ) * ((n : ℤ) - 3) : ℤ) : ℚ) = _
    have hz : (4 : ℚ) ≤ (((n : ℤ) * ((n : ℤ) - 3) : ℤ) : ℚ) := by exact_mod_cast hl
    have hz1 : (((n : ℤ) * ((n : ℤ) - 3) : ℤ) : ℚ) ≤ 2 ^ 52 := by exact_mod_cast hb
    have e : roundNum (((n : ℤ) * ((n : ℤ) - 3) : ℤ) : ℚ) = (((n : ℤ) * ((n : ℤ) - 3) : ℤ) : ℚ) := by
      rw [roundNum_float, round64_int _ (by rw [abs_of_pos (by linarith)]; linarith)]
      rw [abs_of_pos (by linarith)]
      refine le_trans ?_ hz
      norm_num
    rw [round_fin, e]
    rw [e, abs_of_pos (by linarith)]
    exact lt_of_le_of_lt hz1 (by norm_num)
  rw [h2, h3]
  have h4 : F64.div (fin (((n : ℤ) * ((n : ℤ) - 3) : ℤ) : ℚ)) (fin 2) = F64.round ((((n : ℤ) * ((n : ℤ) - 3) : ℤ) : ℚ) / 2) := by
    unfold F64.div
    dsimp only
    rw [if_neg (by norm_num)]
  show F64.sub (F64.div (fin (((n : ℤ) * ((n : ℤ) - 3) : ℤ) : ℚ)) (fin 2)) (fin 1) = _
  rw [h4, key _ (by linarith) hb]
  show F64.round ((((n : ℤ) * ((n : ℤ) - 3) : ℤ) : ℚ) / 2 + -1) = _
  have h5 := key ((n : ℤ) * ((n : ℤ) - 3) - 2) (by linarith) (by linarith)
  have e : (((n : ℤ) * ((n : ℤ) - 3) : ℤ) : ℚ) / 2 + -1 = (((n : ℤ) * ((n : ℤ) - 3) - 2 : ℤ) : ℚ) / 2 := by
    push_cast
    ring
  rw [e, h5]
  congr 1
  push_cast
  ring

/-- The number under the root is close to `1 - r ^ 2`. -/
theorem tUnder_close {r : ℚ} {g : ℝ} (r0 : 0 ≤ r) (r1 : r ≤ 1) (hg2 : g ^ 2 = 1 - (r : ℝ) ^ 2)
    (hg : 1000 * (1 / 2 ^ 53 : ℝ) ≤ g ^ 2) : |(tUnder r : ℝ) - g ^ 2| ≤ 1.01 * (1 / 2 ^ 53) ∧ 0 < tUnder r := by
  obtain ⟨R, hR⟩ : ∃ R, R = roundNum (r * r) := ⟨_, rfl⟩
  obtain ⟨w, hw⟩ : ∃ w, w = roundNum (1 - R) := ⟨_, rfl⟩
  have e1 := roundNum_err (r * r)
  rw [← hR, abs_of_nonneg (mul_self_nonneg r)] at e1
  have e2 := roundNum_err (1 - R)
  rw [← hw] at e2
  have rr : r * r ≤ 1 := by nlinarith
  have hτ : (1 : ℚ) / 2 ^ 1074 ≤ 1 / 2 ^ 53 / 1000 := by norm_num
  obtain ⟨τ, hτe⟩ : ∃ τ : ℚ, τ = 1 / 2 ^ 1074 := ⟨_, rfl⟩
  have τ0 : 0 ≤ τ := by rw [hτe]; positivity
  rw [← hτe] at e1 e2 hτ
  have hclose : |w - (1 - r * r)| ≤ 1.01 * (1 / 2 ^ 53) := by
    have a1 := abs_le.1 e1
    have h1R : |1 - R| ≤ (1 - r * r) + (r * r / 2 ^ 53 + τ) := by
      rw [abs_le]
      constructor <;> [skip; skip] <;> linarith
    have a2 : |w - (1 - R)| ≤ ((1 - r * r) + (r * r / 2 ^ 53 + τ)) / 2 ^ 53 + τ :=
      e2.trans (by linarith [div_le_div_of_nonneg_right h1R (show (0 : ℚ) ≤ 2 ^ 53 by positivity)])
    have a3 := abs_le.1 a2
    rw [abs_le]
    norm_num at a1 a3 hτ ⊢
    constructor <;> linarith
  have hcloseR : |(w : ℝ) - g ^ 2| ≤ 1.01 * (1 / 2 ^ 53) := by
    have := (Rat.cast_le (K := ℝ)).2 hclose
    rw [hg2]
    push_cast at this
    norm_num at this ⊢
    rw [sq]
    exact this
  have w0 : 0 < w := by
    have : (0 : ℝ) < w := by
      have := (abs_le.1 hcloseR).1
      norm_num at this hg
      linarith
    exact_mod_cast this
  have ht : tUnder r = w := by
    unfold tUnder
    rw [← hR, ← hw, max_eq_right w0.le]
  rw [ht]
  exact ⟨hcloseR, w0⟩

/-- Rounding error of the statistic of a nonnegative correlation. -/
theorem tFloat_error_nonneg (h : IsIeee64 sqrt sum dot) (hn : 3 < n) (hn2 : n ≤ 2 ^ 26) {r : ℚ} (r0 : 0 ≤ r)
    (hr : 1 / 2 ^ 40 ≤ 1 - (r : ℝ) ^ 2) :
    ∃ t : ℚ, (ieee64 sqrt sum dot).tStatistic n (fin r) = fin t ∧
      |(t : ℝ) - tScale n * (r / √(1 - (r : ℝ) ^ 2))| ≤ 6 / 2 ^ 53 * (tScale n / ((1 - (r : ℝ) ^ 2) * √(1 - (r : ℝ) ^ 2))) := by
  have hX : 0 < 1 - (r : ℝ) ^ 2 := lt_of_lt_of_le (by positivity) hr
  obtain ⟨g, hg⟩ : ∃ g, g = √(1 - (r : ℝ) ^ 2) := ⟨_, rfl⟩
  have g0 : 0 < g := by rw [hg]; exact Real.sqrt_pos.2 hX
  have g2 : g ^ 2 = 1 - (r : ℝ) ^ 2 := by rw [hg]; exact Real.sq_sqrt hX.le
  have g1 : g ≤ 1 := by
    rw [← abs_of_pos g0, ← sq_le_one_iff_abs_le_one, g2]
    nlinarith [sq_nonneg (r : ℝ)]
  have rR0 : (0 : ℝ) ≤ r := by exact_mod_cast r0
  have rR1 : (r : ℝ) ≤ 1 := by nlinarith
  have r1 : r ≤ 1 := by exact_mod_cast rR1
  have hgu : 1000 * (1 / 2 ^ 53 : ℝ) ≤ g ^ 2 := by
    rw [g2]
    norm_num at hr ⊢
    linarith
  obtain ⟨hw, w0⟩ := tUnder_close r0 r1 g2 hgu
  -- the scale
  have hv0 : (0 : ℚ) ≤ (n : ℚ) * (n - 3) / 2 - 1 := by
    have : (4 : ℚ) ≤ n := by exact_mod_cast hn
    nlinarith
  obtain ⟨s, hs, es⟩ := isSqrt_fin h hv0
  have es' : (ieee64 sqrt sum dot).sqrt ((ieee64 sqrt sum dot).tDegrees n) = fin s := by
    rw [tDegrees_exact hn hn2]
    exact es
  obtain ⟨s', s1, s2, es''⟩ := tFloat_fin h hn (n := n) (hn2.trans_lt (by norm_num))
  obtain rfl : s = s' := F64.fin.inj (es'.symm.trans es'')
  have hsσ : |(s : ℝ) - tScale n| ≤ tScale n * (1 / 2 ^ 53) := by
    have := hs.err
    unfold tScale
    push_cast at this
    rw [mul_one_div]
    exact this
  have σ1 : 1 ≤ tScale n := by
    unfold tScale
    rw [Real.one_le_sqrt]
    have : (4 : ℝ) ≤ n := by exact_mod_cast hn
    nlinarith
  obtain ⟨d, hd, -, -, -, et⟩ := tFloat_finite h es' s1 s2 r0 w0
  refine ⟨_, et, ?_⟩
  obtain ⟨a, ha⟩ : ∃ a, a = roundNum (s * r) := ⟨_, rfl⟩
  obtain ⟨t, ht⟩ : ∃ t, t = roundNum (a / d) := ⟨_, rfl⟩
  rw [← ha, ← ht, ← hg, ← g2]
  obtain ⟨σ, hσ⟩ : ∃ σ, σ = tScale n := ⟨_, rfl⟩
  rw [← hσ] at hsσ σ1 ⊢
  obtain ⟨u, hu⟩ : ∃ u : ℝ, u = 1 / 2 ^ 53 := ⟨_, rfl⟩
  obtain ⟨τ, hτ⟩ : ∃ τ : ℝ, τ = 1 / 2 ^ 1074 := ⟨_, rfl⟩
  have u0 : 0 < u := by rw [hu]; positivity
  have u1 : u ≤ 1 / 1000 := by rw [hu]; norm_num
  have τ0 : 0 ≤ τ := by rw [hτ]; positivity
  have τu : τ ≤ u / 1000 := by rw [hτ, hu]; norm_num
  have ea : |(a : ℝ) - s * r| ≤ s * r * u + τ := by
    have := roundNum_err (s * r)
    rw [← ha, abs_of_nonneg (mul_nonneg (by linarith) r0)] at this
    have := (Rat.cast_le (K := ℝ)).2 this
    rw [hu, hτ]
    push_cast at this
    rwa [mul_one_div]
  have et' : |(t : ℝ) - a / d| ≤ |(a : ℝ) / d| * u + τ := by
    have := roundNum_err (a / d)
    rw [← ht] at this
    have := (Rat.cast_le (K := ℝ)).2 this
    rw [hu, hτ]
    push_cast at this
    rwa [mul_one_div]
  have hd' : |(d : ℝ) - √(tUnder r : ℝ)| ≤ √(tUnder r : ℝ) * u := by
    rw [hu, mul_one_div]
    exact hd.err
  rw [← hu] at hw hgu hsσ
  have dc := tDenom_close u0.le g0 g1 hgu hw hd'
  have h7 : (6 : ℝ) / 2 ^ 53 = 6 * u := by rw [hu]; ring
  rw [h7]
  exact tQuotient_round u0 u1 g0 g1 hgu dc σ1 rR0 rR1 τ0 τu hsσ ea et'

/-- Rounding error of the statistic. -/
theorem tFloat_error (h : IsIeee64 sqrt sum dot) (hn : 3 < n) (hn2 : n ≤ 2 ^ 26) {r : ℚ}
    (hr : 1 / 2 ^ 40 ≤ 1 - (r : ℝ) ^ 2) :
    ∃ t : ℚ, (ieee64 sqrt sum dot).tStatistic n (fin r) = fin t ∧
      |(t : ℝ) - tScale n * (r / √(1 - (r : ℝ) ^ 2))| ≤ 6 / 2 ^ 53 * (tScale n / ((1 - (r : ℝ) ^ 2) * √(1 - (r : ℝ) ^ 2))) := by
  rcases le_total 0 r with r0 | r0
  · exact tFloat_error_nonneg h hn hn2 r0 hr
  · obtain ⟨t, e, ht⟩ := tFloat_error_nonneg h hn hn2 (r := -r) (by linarith) (by push_cast; rwa [neg_sq])
    have e1 := tFloat_neg h hn (hn2.trans_lt (by norm_num)) (fin (-r))
    rw [e] at e1
    have e2 : neg (fin (-r)) = fin r := by simp [neg]
    rw [e2] at e1
    refine ⟨-t, e1, ?_⟩
    push_cast at ht ⊢
    rw [neg_sq] at ht
    rw [← abs_neg]
    convert ht using 2
    ring

end Dcor

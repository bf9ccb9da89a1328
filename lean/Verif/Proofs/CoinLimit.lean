/-
Lemmas for the limit distribution of the bias-corrected distance correlation of independent signs.
-/
import Mathlib.Probability.CentralLimitTheorem
import Mathlib.Probability.Moments.Variance
import Verif.Proofs.FromTerms
import Verif.Spec.Population

namespace Dcor.CoinLimit

open Finset MeasureTheory ProbabilityTheory Filter Topology

/-- The bias-corrected distance covariance of signs in terms of three sums. -/
theorem uDcovSqr_signs {n : ℕ} (hn : 3 < n) (a b : Fin n → Fin n → ℝ) (e d : Fin n → ℝ)
    (he : ∀ i, e i ^ 2 = 1) (hd : ∀ i, d i ^ 2 = 1) (ha : ∀ i j, a i j = (1 - e i * e j) / 2)
    (hb : ∀ i j, b i j = (1 - d i * d j) / 2) {S T R : ℝ} (hS : S = ∑ i, e i) (hT : T = ∑ i, d i)
    (hR : R = ∑ i, e i * d i) :
    4 * ((n : ℝ) - 3) * Spec.uDcovSqr a b = R ^ 2 / n - 1 + (1 - (n : ℝ) / (n - 1) + (S ^ 2 + T ^ 2) / (n * (n - 1))
      - 2 * S * T * R / (n * (n - 2)) + S ^ 2 * T ^ 2 / (n * ((n - 1) * (n - 2)))) := by
  have h3 : (3 : ℝ) < n := by exact_mod_cast hn
  have n0 : (n : ℝ) ≠ 0 := by linarith
  have n1 : (n : ℝ) - 1 ≠ 0 := by linarith
  have n2 : (n : ℝ) - 2 ≠ 0 := by linarith
  have n3 : (n : ℝ) - 3 ≠ 0 := by linarith
  have sa : Symm a := fun i j => by rw [ha, ha, mul_comm]
  have sb : Symm b := fun i j => by rw [hb, hb, mul_comm]
  have za (i) : a i i = 0 := by rw [ha, ← sq, he, sub_self, zero_div]
  have zb (i) : b i i = 0 := by rw [hb, ← sq, hd, sub_self, zero_div]
  have ra (i) : ∑ j, a i j = (n - e i * S) / 2 := by
    simp only [ha]
    rw [← Finset.sum_div, Finset.sum_sub_distrib, ← Finset.mul_sum, ← hS]
    simp
  have rb (i) : ∑ j, b i j = (n - d i * T) / 2 := by
    simp only [hb]
    rw [← Finset.sum_div, Finset.sum_sub_distrib, ← Finset.mul_sum, ← hT]
    simp
  have ta : ∑ i, ∑ j, a i j = (n ^ 2 - S ^ 2) / 2 := by
    simp only [ra]
    rw [← Finset.sum_div, Finset.sum_sub_distrib, ← Finset.sum_mul, ← hS]
    simp
    ring
  have tb : ∑ i, ∑ j, b i j = (n ^ 2 - T ^ 2) / 2 := by
    simp only [rb]
    rw [← Finset.sum_div, Finset.sum_sub_distrib, ← Finset.sum_mul, ← hT]
    simp
    ring
  have tm : ∑ i, (∑ j, a i j) * (∑ j, b i j) = (n ^ 3 - n * S ^ 2 - n * T ^ 2 + S * T * R) / 4 := by
    have h (i) : (∑ j, a i j) * (∑ j, b i j)
        = ((n : ℝ) ^ 2 - n * S * e i - n * T * d i + S * T * (e i * d i)) / 4 := by
      rw [ra, rb]
      ring
    simp only [h]
    rw [← Finset.sum_div, Finset.sum_add_distrib, Finset.sum_sub_distrib, Finset.sum_sub_distrib, ← Finset.mul_sum,
      ← Finset.mul_sum, ← Finset.mul_sum, ← hS, ← hT, ← hR]
    simp
    ring
  have tp : ∑ i, ∑ j, a i j * b i j = (n ^ 2 - S ^ 2 - T ^ 2 + R ^ 2) / 4 := by
    have h (i j) : a i j * b i j = (1 - e i * e j - d i * d j + (e i * d i) * (e j * d j)) / 4 := by
      rw [ha, hb]
      ring
    have h' (i) : ∑ j, a i j * b i j = (n - e i * S - d i * T + (e i * d i) * R) / 4 := by
      simp only [h]
      rw [← Finset.sum_div, Finset.sum_add_distrib, Finset.sum_sub_distrib, Finset.sum_sub_distrib, ← Finset.mul_sum,
        ← Finset.mul_sum, ← Finset.mul_sum, ← hS, ← hT, ← hR]
      simp
    simp only [h']
    rw [← Finset.sum_div, Finset.sum_add_distrib, Finset.sum_sub_distrib, Finset.sum_sub_distrib, ← Finset.sum_mul,
      ← Finset.sum_mul, ← Finset.sum_mul, ← hS, ← hT, ← hR]
    simp
    ring
  rw [Spec.uDcovSqr_eq_terms a b sa sb za zb hn, tp, tm, ta, tb]
  field_simp
  ring

theorem div_bound {x A D D0 c u : ℝ} (hx : |x| ≤ A) (h0 : 0 < D0) (hD : D0 ≤ D) (hu : 0 < u) (h : A * u ≤ c * D0) :
    |x / D| ≤ c / u := by
  have hD' : 0 < D := lt_of_lt_of_le h0 hD
  have hA : 0 ≤ A := (abs_nonneg x).trans hx
  rw [abs_div, abs_of_pos hD']
  calc |x| / D ≤ A / D0 := div_le_div₀ hA hx h0 hD
    _ ≤ c / u := by rwa [div_le_div_iff₀ h0 hu]

/-- The remainder is small if the three sums are. -/
theorem remainder_le {n u S T R : ℝ} (hn : 4 ≤ n) (hu : 1 ≤ u) (hnu : n = u ^ 8) (hS : |S| ≤ u ^ 5) (hT : |T| ≤ u ^ 5)
    (hR : |R| ≤ u ^ 5) :
    |1 - n / (n - 1) + (S ^ 2 + T ^ 2) / (n * (n - 1)) - 2 * S * T * R / (n * (n - 2))
      + S ^ 2 * T ^ 2 / (n * ((n - 1) * (n - 2)))| ≤ 14 / u := by
  have u0 : 0 < u := by linarith
  have n0 : 0 < n := by linarith
  have h1 : u ^ 8 / 2 ≤ n - 1 := by linarith
  have h2 : u ^ 8 / 2 ≤ n - 2 := by linarith
  have d1 : u ^ 16 / 2 ≤ n * (n - 1) := by
    have := mul_le_mul_of_nonneg_left h1 n0.le
    calc u ^ 16 / 2 = n * (u ^ 8 / 2) := by rw [hnu]; ring
      _ ≤ _ := this
  have d2 : u ^ 16 / 2 ≤ n * (n - 2) := by
    have := mul_le_mul_of_nonneg_left h2 n0.le
    calc u ^ 16 / 2 = n * (u ^ 8 / 2) := by rw [hnu]; ring
      _ ≤ _ := this
  have d3 : u ^ 24 / 4 ≤ n * ((n - 1) * (n - 2)) := by
    have := mul_le_mul_of_nonneg_left (mul_le_mul h1 h2 (by positivity) (by linarith)) n0.le
    calc u ^ 24 / 4 = n * (u ^ 8 / 2 * (u ^ 8 / 2)) := by rw [hnu]; ring
      _ ≤ _ := this
  have hS2 : S ^ 2 ≤ u ^ 10 := by
    have := pow_le_pow_left₀ (abs_nonneg S) hS 2
    rwa [sq_abs, ← pow_mul] at this
  have hT2 : T ^ 2 ≤ u ^ 10 := by
    have := pow_le_pow_left₀ (abs_nonneg T) hT 2
    rwa [sq_abs, ← pow_mul] at this
  have e1 : |(-1) / (n - 1)| ≤ 2 / u := by
    refine div_bound (A := 1) (by simp) (by positivity) h1 u0 ?_
    have := pow_le_pow_right₀ hu (show 1 ≤ 8 by norm_num)
    linarith
  have e2 : |(S ^ 2 + T ^ 2) / (n * (n - 1))| ≤ 4 / u := by
    refine div_bound (A := 2 * u ^ 10) ?_ (by positivity) d1 u0 ?_
    · rw [abs_of_nonneg (by positivity)]
      linarith
    · have := pow_le_pow_right₀ hu (show 11 ≤ 16 by norm_num)
      nlinarith
  have e3 : |2 * S * T * R / (n * (n - 2))| ≤ 4 / u := by
    refine div_bound (A := 2 * u ^ 15) ?_ (by positivity) d2 u0 (le_of_eq (by ring))
    rw [abs_mul, abs_mul, abs_mul, abs_two]
    calc 2 * |S| * |T| * |R| ≤ 2 * u ^ 5 * u ^ 5 * u ^ 5 := by gcongr
      _ = _ := by ring
  have e4 : |S ^ 2 * T ^ 2 / (n * ((n - 1) * (n - 2)))| ≤ 4 / u := by
    refine div_bound (A := u ^ 20) ?_ (by positivity) d3 u0 ?_
    · rw [abs_of_nonneg (by positivity)]
      calc S ^ 2 * T ^ 2 ≤ u ^ 10 * u ^ 10 := by gcongr
        _ = _ := by ring
    · have := pow_le_pow_right₀ hu (show 21 ≤ 24 by norm_num)
      nlinarith
  have h0 : 1 - n / (n - 1) = (-1) / (n - 1) := by
    rw [one_sub_div (by linarith)]
    ring
  rw [h0]
  have e5 : (14 : ℝ) / u = 2 / u + 4 / u + 4 / u + 4 / u := by ring
  rw [e5]
  refine (abs_add_le _ _).trans (add_le_add ?_ e4)
  refine (abs_sub _ _).trans (add_le_add ?_ e3)
  exact (abs_add_le _ _).trans (add_le_add e1 e2)

variable {Ω S : Type*} {mΩ : MeasurableSpace Ω} {mS : MeasurableSpace S} {P : Measure Ω} [IsProbabilityMeasure P]
  {μ : Measure S} {Z : ℕ → Ω → S}

theorem memLp_sign {f : S → ℝ} (hZ : Spec.Sample P Z μ) (mf : Measurable f) (h1 : ∀ᵐ z ∂μ, f z ^ 2 = 1) (i : ℕ) :
    MemLp (fun ω => f (Z i ω)) 2 P := by
  have h : ∀ᵐ ω ∂P, f (Z i ω) ^ 2 = 1 := by
    rw [← hZ.law i] at h1
    exact ae_of_ae_map (hZ.measurable i).aemeasurable h1
  refine MemLp.of_bound (mf.comp (hZ.measurable i)).aestronglyMeasurable 1 (h.mono fun ω h => ?_)
  rw [Real.norm_eq_abs]
  exact (sq_le_one_iff_abs_le_one _).1 h.le

/-- Chebyshev's inequality for the sum of signs. -/
theorem sum_sign_le {f : S → ℝ} (hZ : Spec.Sample P Z μ) (mf : Measurable f) (h1 : ∀ᵐ z ∂μ, f z ^ 2 = 1)
    (h0 : ∫ z, f z ∂μ = 0) {b : ℝ} (hb : 0 < b) (n : ℕ) :
    P {ω | b ≤ |∑ i ∈ range n, f (Z i ω)|} ≤ ENNReal.ofReal (n / b ^ 2) := by
  have hm := memLp_sign hZ mf h1
  have hi (i) : ∫ ω, f (Z i ω) ∂P = 0 := by
    rw [← h0, ← hZ.law i, integral_map (hZ.measurable i).aemeasurable mf.aestronglyMeasurable]
  have h2 (i) : ∫ ω, f (Z i ω) ^ 2 ∂P = 1 := by
    have : ∫ z, f z ^ 2 ∂μ = ∫ ω, f (Z i ω) ^ 2 ∂P := by
      rw [← hZ.law i, integral_map (hZ.measurable i).aemeasurable (mf.pow_const 2).aestronglyMeasurable]
    rw [← this, integral_congr_ae h1]
    rw [← hZ.law i]
    have := Measure.isProbabilityMeasure_map (μ := P) (hZ.measurable i).aemeasurable
    simp
  have hv (i) : Var[fun ω => f (Z i ω); P] = 1 := by
    rw [variance_eq_sub (hm i), hi i]
    simp only [Pi.pow_apply, h2]
    norm_num
  have hsum : Var[∑ i ∈ range n, fun ω => f (Z i ω); P] = n := by
    rw [IndepFun.variance_sum (fun i _ => hm i) fun i _ j _ hij => (hZ.indep hij).comp mf mf]
    simp [hv]
  have hL : MemLp (∑ i ∈ range n, fun ω => f (Z i ω)) 2 P := memLp_finsetSum' _ fun i _ => hm i
  have hE : ∫ ω, (∑ i ∈ range n, fun ω => f (Z i ω)) ω ∂P = 0 := by
    simp only [Finset.sum_apply]
    rw [integral_finsetSum _ fun i _ => (hm i).integrable one_le_two]
    simp [hi]
  have h := meas_ge_le_variance_div_sq hL hb
  rw [hE, hsum] at h
  simpa using h

/-- The sums of the first `n` signs are at most `n ^ (5/8)` with a probability that tends to one. -/
theorem remainder_tendsto {f g : S → ℝ} (hZ : Spec.Sample P Z μ) (mf : Measurable f) (mg : Measurable g)
    (hf : ∀ᵐ z ∂μ, f z ^ 2 = 1) (hg : ∀ᵐ z ∂μ, g z ^ 2 = 1) (f0 : ∫ z, f z ∂μ = 0) (g0 : ∫ z, g z ∂μ = 0)
    (fg0 : ∫ z, f z * g z ∂μ = 0) {D : ℕ → Ω → ℝ}
    (hD : ∀ᵐ ω ∂P, ∀ n : ℕ, 3 < n → ∀ A B R : ℝ, A = ∑ i ∈ range n, f (Z i ω) → B = ∑ i ∈ range n, g (Z i ω) →
      R = ∑ i ∈ range n, f (Z i ω) * g (Z i ω) →
      D n ω = 1 - (n : ℝ) / (n - 1) + (A ^ 2 + B ^ 2) / (n * (n - 1))
        - 2 * A * B * R / (n * (n - 2)) + A ^ 2 * B ^ 2 / (n * ((n - 1) * (n - 2)))) :
    TendstoInMeasure P D atTop 0 := by
  rw [tendstoInMeasure_iff_norm]
  intro ε hε
  obtain ⟨u, hu⟩ : ∃ u : ℕ → ℝ, u = fun n : ℕ => (n : ℝ) ^ (1 / 8 : ℝ) := ⟨_, rfl⟩
  have hu8 (n : ℕ) : (n : ℝ) = u n ^ 8 := by
    rw [hu, ← Real.rpow_natCast, ← Real.rpow_mul (Nat.cast_nonneg n)]
    norm_num
  have hu1 : ∀ n : ℕ, 3 < n → 1 ≤ u n := by
    intro n hn
    rw [hu]
    exact Real.one_le_rpow (by exact_mod_cast (by omega : 1 ≤ n)) (by norm_num)
  have hut : Tendsto u atTop atTop := by
    rw [hu]
    exact (tendsto_rpow_atTop (by norm_num)).comp tendsto_natCast_atTop_atTop
  have hfg : ∀ᵐ z ∂μ, (f z * g z) ^ 2 = 1 := by
    filter_upwards [hf, hg] with z h1 h2
    rw [mul_pow, h1, h2, one_mul]
  have hlim : Tendsto (fun n => ENNReal.ofReal (1 / u n ^ 2) + ENNReal.ofReal (1 / u n ^ 2) + ENNReal.ofReal (1 / u n ^ 2))
      atTop (𝓝 0) := by
    have h : Tendsto (fun n => ENNReal.ofReal (1 / u n ^ 2)) atTop (𝓝 0) := by
      rw [← ENNReal.ofReal_zero]
      refine ENNReal.tendsto_ofReal ?_
      exact tendsto_const_nhds.div_atTop ((tendsto_pow_atTop two_ne_zero).comp hut)
    simpa using (h.add h).add h
  refine tendsto_of_tendsto_of_tendsto_of_le_of_le' tendsto_const_nhds hlim (Eventually.of_forall fun n => zero_le) ?_
  filter_upwards [eventually_gt_atTop 3, hut.eventually_gt_atTop (14 / ε)] with n hn h14
  have u0 : 0 < u n := lt_of_lt_of_le one_pos (hu1 n hn)
  have hq : (n : ℝ) / (u n ^ 5) ^ 2 = 1 / u n ^ 2 := by
    rw [hu8 n]
    field_simp
  have c1 := sum_sign_le hZ mf hf f0 (b := u n ^ 5) (by positivity) n
  have c2 := sum_sign_le hZ mg hg g0 (b := u n ^ 5) (by positivity) n
  have c3 := sum_sign_le hZ (mf.mul mg) hfg fg0 (b := u n ^ 5) (by positivity) n
  rw [hq] at c1 c2 c3
  refine le_trans ?_ (add_le_add (add_le_add c1 c2) c3)
  refine le_trans ?_ ((measure_union_le _ _).trans (add_le_add_left (measure_union_le _ _) _))
  refine measure_mono_ae ?_
  filter_upwards [hD] with ω h hω
  by_contra hc
  have hc' : ¬ (u n ^ 5 ≤ |∑ i ∈ range n, f (Z i ω)| ∨ u n ^ 5 ≤ |∑ i ∈ range n, g (Z i ω)|
    ∨ u n ^ 5 ≤ |∑ i ∈ range n, f (Z i ω) * g (Z i ω)|) := by
    intro h'
    refine hc ?_
    rcases h' with h' | h' | h'
    · exact Or.inl (Or.inl h')
    · exact Or.inl (Or.inr h')
    · exact Or.inr h'
  push Not at hc'
  have hle := remainder_le (n := n) (by exact_mod_cast hn) (hu1 n hn) (hu8 n) hc'.1.le hc'.2.1.le hc'.2.2.le
  rw [← h n hn _ _ _ rfl rfl rfl] at hle
  have hω' : ε ≤ |D n ω| := by
    have : ε ≤ ‖D n ω - 0‖ := hω
    rwa [sub_zero, Real.norm_eq_abs] at this
  have : 14 / u n < ε := by
    rw [div_lt_iff₀ hε] at h14
    rw [div_lt_iff₀ u0]
    linarith
  linarith

/-- The central limit theorem for signs, squared. -/
theorem square_tendsto {f : S → ℝ} (hZ : Spec.Sample P Z μ) (hI : iIndepFun Z P) (mf : Measurable f)
    (hf : ∀ᵐ z ∂μ, f z ^ 2 = 1) (f0 : ∫ z, f z ∂μ = 0) :
    TendstoInDistribution (fun (n : ℕ) ω => (∑ i ∈ range n, f (Z i ω)) ^ 2 / n - 1) atTop (fun z : ℝ => z ^ 2 - 1)
      (fun _ => P) (gaussianReal 0 1) := by
  have hi : ∫ ω, f (Z 0 ω) ∂P = 0 := by
    rw [← f0, ← hZ.law 0, integral_map (hZ.measurable 0).aemeasurable mf.aestronglyMeasurable]
  have h2 : ∫ ω, f (Z 0 ω) ^ 2 ∂P = 1 := by
    have : ∫ z, f z ^ 2 ∂μ = ∫ ω, f (Z 0 ω) ^ 2 ∂P := by
      rw [← hZ.law 0, integral_map (hZ.measurable 0).aemeasurable (mf.pow_const 2).aestronglyMeasurable]
    rw [← this, integral_congr_ae hf]
    rw [← hZ.law 0]
    have := Measure.isProbabilityMeasure_map (μ := P) (hZ.measurable 0).aemeasurable
    simp
  have h := tendstoInDistribution_inv_sqrt_mul_sum (P := P) (P' := gaussianReal 0 1) (Y := id)
    (X := fun i ω => f (Z i ω)) ⟨aemeasurable_id, Measure.map_id⟩ hi h2 (hI.comp _ fun _ => mf)
    fun i => ⟨(mf.comp (hZ.measurable i)).aemeasurable, (mf.comp (hZ.measurable 0)).aemeasurable, by
      rw [← Function.comp_def, ← Function.comp_def, ← Measure.map_map mf (hZ.measurable i),
        ← Measure.map_map mf (hZ.measurable 0), hZ.law i, hZ.law 0]⟩
  refine (h.continuous_comp (g := fun z : ℝ => z ^ 2 - 1) (by fun_prop)).congr (fun n => ae_of_all _ fun ω => ?_)
    (ae_eq_refl _)
  simp only [Function.comp_apply]
  rw [mul_pow, inv_pow, Real.sq_sqrt (Nat.cast_nonneg n), inv_mul_eq_div]

theorem tendsto_add_remainder {D W V : ℕ → Ω → ℝ} {L : ℝ → ℝ}
    (h : TendstoInDistribution W atTop L (fun _ => P) (gaussianReal 0 1)) (hD : TendstoInMeasure P D atTop 0)
    (hV : ∀ n, AEMeasurable (V n) P) (e : ∀ n ω, V n ω = W n ω + D n ω) :
    TendstoInDistribution V atTop L (fun _ => P) (gaussianReal 0 1) := by
  refine tendstoInDistribution_of_tendstoInMeasure_sub V L h ?_ hV
  have : V - W = D := by
    funext n ω
    simp [e]
  rwa [this]

/-- Division by a sequence that tends to one, where a quotient by zero is zero. -/
theorem tendsto_div {V H : ℕ → Ω → ℝ} {L : ℝ → ℝ} (h : TendstoInDistribution V atTop L (fun _ => P) (gaussianReal 0 1))
    (hH : ∀ᵐ ω ∂P, Tendsto (fun n => H n ω) atTop (𝓝 1)) (mH : ∀ n, AEMeasurable (H n) P) :
    TendstoInDistribution (fun n ω => V n ω / H n ω) atTop L (fun _ => P) (gaussianReal 0 1) := by
  have hm : TendstoInMeasure P H atTop (fun _ => 1) :=
    tendstoInMeasure_of_tendsto_ae (fun n => (mH n).aestronglyMeasurable) hH
  have h1 := h.continuous_comp_prodMk_of_tendstoInMeasure_const (g := fun x : ℝ × ℝ => x.1 / max x.2 (1 / 2))
    (Continuous.div (by fun_prop) (by fun_prop) fun x => by
      have : (1 / 2 : ℝ) ≤ max x.2 (1 / 2) := le_max_right _ _
      linarith) hm mH
  have e : (fun z => (fun x : ℝ × ℝ => x.1 / max x.2 (1 / 2)) (L z, (1 : ℝ))) = L := by
    funext z
    norm_num
  refine tendstoInDistribution_of_tendstoInMeasure_sub _ L (h1.congr (fun n => ae_eq_refl _) (ae_of_all _ fun z => congrFun e z)) ?_
    fun n => (h.forall_aemeasurable n).div (mH n)
  refine tendstoInMeasure_of_tendsto_ae (fun n => ?_) ?_
  · have a1 : AEMeasurable (fun ω => V n ω / H n ω) P := (h.forall_aemeasurable n).div (mH n)
    have a2 : AEMeasurable (fun ω => V n ω / max (H n ω) (1 / 2)) P :=
      (h.forall_aemeasurable n).div ((mH n).max aemeasurable_const)
    exact (a1.sub a2).aestronglyMeasurable
  · filter_upwards [hH] with ω hω
    refine tendsto_const_nhds.congr' ?_
    filter_upwards [hω.eventually_const_lt (show (1 / 2 : ℝ) < 1 by norm_num)] with n hn
    show (0 : ℝ) = V n ω / H n ω - V n ω / max (H n ω) (1 / 2)
    rw [max_eq_left hn.le, sub_self]

end Dcor.CoinLimit

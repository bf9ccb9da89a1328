/-
Distances between observations with many independent coordinates.
-/
import Mathlib.Probability.Moments.Variance
import Verif.Proofs.UProjection
import Verif.Proofs.VectorClt

namespace Dcor.HighDimension

open MeasureTheory ProbabilityTheory Filter Topology Finset
open UProjection
open scoped RealInnerProductSpace

variable {n : ℕ} {ν : Measure ℝ} [IsProbabilityMeasure ν]

/-! ### Moments of independent standardised numbers -/

/-- A distribution with mean 0, variance 1 and a fourth moment. -/
structure Standard (ν : Measure ℝ) : Prop where
  mean : ∫ t, t ∂ν = 0
  square : ∫ t, t ^ 2 ∂ν = 1
  fourth : Integrable (fun t => t ^ 4) ν

theorem Standard.integrable_pow (hν : Standard ν) {k : ℕ} (hk : k ≤ 4) : Integrable (fun t => t ^ k) ν := by
  refine (hν.fourth.add (integrable_const (1 : ℝ))).mono' (by fun_prop) (ae_of_all _ fun t => ?_)
  rw [norm_pow, Real.norm_eq_abs]
  have h0 := abs_nonneg t
  have h4 : t ^ 4 = |t| ^ 4 := by
    rw [← abs_pow, abs_of_nonneg (by positivity)]
  simp only [Pi.add_apply, h4]
  rcases le_total |t| 1 with h | h
  · exact (pow_le_one₀ h0 h).trans (by linarith [pow_nonneg h0 4])
  · exact (pow_le_pow_right₀ h hk).trans (by linarith)

theorem integral_monomial (c : Fin n → ℕ) :
    ∫ x, ∏ r, x r ^ c r ∂(Measure.pi fun _ : Fin n => ν) = ∏ r, ∫ t, t ^ c r ∂ν :=
  integral_fintype_prod_eq_prod (μ := fun _ : Fin n => ν) (fun r t => t ^ c r)

theorem integrable_monomial (hν : Standard ν) {c : Fin n → ℕ} (hc : ∀ r, c r ≤ 4) :
    Integrable (fun x : Fin n → ℝ => ∏ r, x r ^ c r) (Measure.pi fun _ : Fin n => ν) :=
  Integrable.fintype_prod (μ := fun _ : Fin n => ν) (f := fun r t => t ^ c r) fun r => hν.integrable_pow (hc r)

/-- The number of times a coordinate occurs in a product. -/
def occ (i r : Fin n) : ℕ := if r = i then 1 else 0

theorem prod_occ (x : Fin n → ℝ) (i : Fin n) : ∏ r, x r ^ occ i r = x i := by
  unfold occ
  simp

theorem mul_eq_monomial (x : Fin n → ℝ) (i j : Fin n) : x i * x j = ∏ r, x r ^ (occ i r + occ j r) := by
  simp only [pow_add, Finset.prod_mul_distrib, prod_occ]

theorem mul4_eq_monomial (x : Fin n → ℝ) (i j k l : Fin n) :
    x i * x j * (x k * x l) = ∏ r, x r ^ (occ i r + occ j r + (occ k r + occ l r)) := by
  simp only [pow_add, Finset.prod_mul_distrib, prod_occ]

theorem occ_le (i r : Fin n) : occ i r ≤ 1 := by
  unfold occ
  split <;> simp

theorem integrable_mul4 (hν : Standard ν) (i j k l : Fin n) :
    Integrable (fun x : Fin n → ℝ => x i * x j * (x k * x l)) (Measure.pi fun _ : Fin n => ν) := by
  simp only [mul4_eq_monomial]
  refine integrable_monomial hν fun r => ?_
  have h1 := occ_le i r
  have h2 := occ_le j r
  have h3 := occ_le k r
  have h4 := occ_le l r
  omega

theorem memLp_mul (hν : Standard ν) (i j : Fin n) :
    MemLp (fun x : Fin n → ℝ => x i * x j) 2 (Measure.pi fun _ : Fin n => ν) := by
  rw [memLp_two_iff_integrable_sq (by fun_prop)]
  simpa only [sq] using integrable_mul4 hν i j i j

theorem integral_mul (hν : Standard ν) {i j : Fin n} (hij : i ≠ j) :
    ∫ x, x i * x j ∂(Measure.pi fun _ : Fin n => ν) = 0 := by
  simp only [mul_eq_monomial, integral_monomial]
  refine Finset.prod_eq_zero (mem_univ i) ?_
  simp [occ, hij, hν.mean]

theorem integral_mul_self (hν : Standard ν) (i : Fin n) :
    ∫ x, x i * x i ∂(Measure.pi fun _ : Fin n => ν) = 1 := by
  simp only [mul_eq_monomial, integral_monomial]
  refine Finset.prod_eq_one fun r _ => ?_
  unfold occ
  split
  · exact hν.square
  · simp

theorem integral_mul4 (hν : Standard ν) (q q' : Pairs n) :
    ∫ x, x q.1.1 * x q.1.2 * (x q'.1.1 * x q'.1.2) ∂(Measure.pi fun _ : Fin n => ν) = if q = q' then 1 else 0 := by
  obtain ⟨⟨i, j⟩, hij⟩ := q
  obtain ⟨⟨k, l⟩, hkl⟩ := q'
  have hij' : i < j := hij
  have hkl' : k < l := hkl
  simp only [mul4_eq_monomial, integral_monomial, Subtype.mk.injEq, Prod.mk.injEq]
  split_ifs with h
  · obtain ⟨rfl, rfl⟩ := h
    refine Finset.prod_eq_one fun r _ => ?_
    rcases eq_or_ne r i with rfl | h1
    · simp [occ, hij'.ne, hν.square]
    · rcases eq_or_ne r j with rfl | h2
      · simp [occ, hij'.ne', hν.square]
      · simp [occ, h1, h2]
  · rcases lt_trichotomy i k with h1 | h1 | h1
    · refine Finset.prod_eq_zero (mem_univ i) ?_
      simp [occ, hij'.ne, h1.ne, (h1.trans hkl').ne, hν.mean]
    · subst h1
      have hjl : j ≠ l := fun e => h ⟨rfl, e⟩
      refine Finset.prod_eq_zero (mem_univ j) ?_
      simp [occ, hij'.ne', hjl, hν.mean]
    · refine Finset.prod_eq_zero (mem_univ k) ?_
      simp [occ, hkl'.ne, h1.ne, (h1.trans hij').ne, hν.mean]

/-- The centred squared difference of two numbers. -/
noncomputable def gap (q : Pairs n) (x : Fin n → ℝ) : ℝ := (x q.1.1 - x q.1.2) ^ 2 - 2

theorem gap_eq (q : Pairs n) (x : Fin n → ℝ) :
    gap q x = x q.1.1 * x q.1.1 - 2 * (x q.1.1 * x q.1.2) + x q.1.2 * x q.1.2 - 2 := by
  unfold gap
  ring

theorem memLp_gap (hν : Standard ν) (q : Pairs n) : MemLp (gap q) 2 (Measure.pi fun _ : Fin n => ν) := by
  have h := (((memLp_mul hν q.1.1 q.1.1).sub ((memLp_mul hν q.1.1 q.1.2).const_mul 2)).add (memLp_mul hν q.1.2 q.1.2)).sub
    (memLp_const 2)
  exact h.congr_norm (by unfold gap; fun_prop) (ae_of_all _ fun x => by simp [gap_eq])

theorem integral_gap (hν : Standard ν) (q : Pairs n) : ∫ x, gap q x ∂(Measure.pi fun _ : Fin n => ν) = 0 := by
  have h1 := (memLp_mul hν q.1.1 q.1.1).integrable one_le_two
  have h2 := ((memLp_mul hν q.1.1 q.1.2).const_mul 2).integrable one_le_two
  have h3 := (memLp_mul hν q.1.2 q.1.2).integrable one_le_two
  have h4 : Integrable (fun x : Fin n → ℝ => x q.1.1 * x q.1.1 - 2 * (x q.1.1 * x q.1.2))
    (Measure.pi fun _ : Fin n => ν) := h1.sub h2
  have h5 : Integrable (fun x : Fin n → ℝ => x q.1.1 * x q.1.1 - 2 * (x q.1.1 * x q.1.2) + x q.1.2 * x q.1.2)
    (Measure.pi fun _ : Fin n => ν) := h4.add h3
  simp only [gap_eq]
  rw [integral_sub h5 (integrable_const _), integral_add h4 h3, integral_sub h1 h2,
    integral_const_mul, integral_mul hν q.2.ne, integral_mul_self hν, integral_mul_self hν]
  simp
  norm_num

/-! ### Distances -/

/-- The first terms of the expansion of a root. -/
theorem abs_sqrt_sub_le {y : ℝ} (hy : -1 ≤ y) : |Real.sqrt (1 + y) - 1 - y / 2| ≤ y ^ 2 / 2 := by
  have h0 := Real.sqrt_nonneg (1 + y)
  have h1 := Real.sq_sqrt (show 0 ≤ 1 + y by linarith)
  generalize Real.sqrt (1 + y) = s at h0 h1
  have hy' : y = s ^ 2 - 1 := by linarith
  subst hy'
  rw [abs_le]
  constructor
  · nlinarith [mul_nonneg h0 (sq_nonneg (s - 1)), mul_nonneg (sq_nonneg s) (sq_nonneg (s - 1))]
  · nlinarith [sq_nonneg (s - 1), sq_nonneg (s ^ 2 - 1)]

variable {Ω : Type*} [MeasurableSpace Ω] {P : Measure Ω} [IsProbabilityMeasure P] {ξ : ℕ → Ω → Fin n → ℝ}

/-- The scaled sum of the centred squared differences. -/
noncomputable def gapSum (ξ : ℕ → Ω → Fin n → ℝ) (q : Pairs n) (p : ℕ) (ω : Ω) : ℝ :=
  (Real.sqrt p)⁻¹ * ∑ k ∈ range p, gap q (ξ k ω)

/-- What a distance differs by from its linear approximation. -/
noncomputable def rest (ξ : ℕ → Ω → Fin n → ℝ) (q : Pairs n) (p : ℕ) (ω : Ω) : ℝ :=
  Real.sqrt 2 * Real.sqrt (∑ k ∈ range p, (ξ k ω q.1.1 - ξ k ω q.1.2) ^ 2) - 2 * Real.sqrt p - gapSum ξ q p ω / 2

omit [MeasurableSpace Ω] in
theorem abs_rest_le (q : Pairs n) (p : ℕ) (ω : Ω) :
    |rest ξ q p ω| ≤ gapSum ξ q p ω ^ 2 / (4 * Real.sqrt p) := by
  rcases Nat.eq_zero_or_pos p with rfl | hp
  · simp [rest, gapSum]
  have hp0 : (0 : ℝ) < p := by exact_mod_cast hp
  have hs : 0 < Real.sqrt p := Real.sqrt_pos.2 hp0
  have hss := Real.sq_sqrt hp0.le
  obtain ⟨S, hS⟩ : ∃ S, S = ∑ k ∈ range p, (ξ k ω q.1.1 - ξ k ω q.1.2) ^ 2 := ⟨_, rfl⟩
  have hS0 : 0 ≤ S := hS ▸ Finset.sum_nonneg fun _ _ => sq_nonneg _
  have hg : gapSum ξ q p ω = (Real.sqrt p)⁻¹ * (S - 2 * p) := by
    unfold gapSum gap
    rw [Finset.sum_sub_distrib, ← hS]
    simp [mul_comm]
  obtain ⟨y, hy⟩ : ∃ y, y = S / (2 * p) - 1 := ⟨_, rfl⟩
  have hy1 : -1 ≤ y := by
    rw [hy]
    have : 0 ≤ S / (2 * p) := by positivity
    linarith
  have hSy : S = 2 * p * (1 + y) := by
    rw [hy]
    field_simp
    ring
  have hr : rest ξ q p ω = 2 * Real.sqrt p * (Real.sqrt (1 + y) - 1 - y / 2) := by
    unfold rest
    rw [← hS, hg, hSy, Real.sqrt_mul (by positivity), Real.sqrt_mul (by positivity)]
    have h2 := Real.mul_self_sqrt (show (0 : ℝ) ≤ 2 by norm_num)
    generalize Real.sqrt p = s at hs hss ⊢
    rw [← hss]
    field_simp
    linear_combination Real.sqrt (1 + y) * h2
  have hg2 : gapSum ξ q p ω ^ 2 / (4 * Real.sqrt p) = 2 * Real.sqrt p * (y ^ 2 / 2) := by
    rw [hg, hSy]
    generalize Real.sqrt p = s at hs hss ⊢
    rw [← hss]
    field_simp
    ring
  rw [hr, hg2, abs_mul, abs_of_pos (by positivity)]
  exact mul_le_mul_of_nonneg_left (abs_sqrt_sub_le hy1) (by positivity)

/-- Independent coordinates, each of which consists of independent numbers with the distribution `ν`. -/
structure _root_.Dcor.Spec.Coordinates (P : Measure Ω) (x : ℕ → Ω → Fin n → ℝ) (ν : Measure ℝ) : Prop where
  measurable : ∀ k, Measurable (x k)
  law : ∀ k, P.map (x k) = Measure.pi fun _ => ν
  indep : iIndepFun x P

omit [IsProbabilityMeasure ν] [IsProbabilityMeasure P] in
theorem integral_comp (hξ : Spec.Coordinates P ξ ν) (k : ℕ) {F : (Fin n → ℝ) → ℝ} (hF : Measurable F) :
    ∫ ω, F (ξ k ω) ∂P = ∫ x, F x ∂(Measure.pi fun _ : Fin n => ν) := by
  rw [← hξ.law k, integral_map (hξ.measurable k).aemeasurable hF.aestronglyMeasurable]

omit [IsProbabilityMeasure ν] [IsProbabilityMeasure P] in
theorem memLp_comp (hξ : Spec.Coordinates P ξ ν) (k : ℕ) {F : (Fin n → ℝ) → ℝ} (hF : Measurable F)
    (h : MemLp F 2 (Measure.pi fun _ : Fin n => ν)) : MemLp (fun ω => F (ξ k ω)) 2 P := by
  rw [← hξ.law k, memLp_map_measure_iff hF.aestronglyMeasurable (hξ.measurable k).aemeasurable] at h
  exact h

@[fun_prop]
theorem measurable_gap (q : Pairs n) : Measurable (gap q) := by
  unfold gap
  fun_prop

omit [IsProbabilityMeasure ν] [IsProbabilityMeasure P] in
theorem measurable_gapSum (hξ : Spec.Coordinates P ξ ν) (q : Pairs n) (p : ℕ) : Measurable (gapSum ξ q p) := by
  have := hξ.measurable
  unfold gapSum
  fun_prop

omit [IsProbabilityMeasure ν] [IsProbabilityMeasure P] in
theorem measurable_rest (hξ : Spec.Coordinates P ξ ν) (q : Pairs n) (p : ℕ) : Measurable (rest ξ q p) := by
  have := hξ.measurable
  have := measurable_gapSum hξ q p
  unfold rest
  fun_prop

theorem integral_gapSum_sq (hν : Standard ν) (hξ : Spec.Coordinates P ξ ν) (q : Pairs n) (p : ℕ) :
    Integrable (fun ω => gapSum ξ q p ω ^ 2) P ∧
      ∫ ω, gapSum ξ q p ω ^ 2 ∂P ≤ Var[gap q; Measure.pi fun _ : Fin n => ν] := by
  have hm (k : ℕ) : MemLp (fun ω => gap q (ξ k ω)) 2 P := memLp_comp hξ k (measurable_gap q) (memLp_gap hν q)
  have h0 (k : ℕ) : ∫ ω, gap q (ξ k ω) ∂P = 0 := by rw [integral_comp hξ k (measurable_gap q), integral_gap hν q]
  have hsum : MemLp (fun ω => ∑ k ∈ range p, gap q (ξ k ω)) 2 P := memLp_finsetSum _ fun k _ => hm k
  have hi : Integrable (fun ω => gapSum ξ q p ω ^ 2) P := by
    have := (hsum.const_mul (Real.sqrt p)⁻¹).integrable_sq
    exact this
  refine ⟨hi, ?_⟩
  have hv (k : ℕ) : Var[fun ω => gap q (ξ k ω); P] = Var[gap q; Measure.pi fun _ : Fin n => ν] := by
    rw [← hξ.law k, variance_map (by fun_prop) (hξ.measurable k).aemeasurable]
    rfl
  have hind : iIndepFun (fun k ω => gap q (ξ k ω)) P := hξ.indep.comp (fun _ => gap q) fun _ => measurable_gap q
  have hV := IndepFun.variance_sum (μ := P) (X := fun k ω => gap q (ξ k ω)) (s := range p) (fun k _ => hm k)
    fun i _ j _ hij => hind.indepFun hij
  simp only [hv, Finset.sum_const, card_range, nsmul_eq_mul] at hV
  rw [variance_eq_sub (by
    have : (∑ k ∈ range p, fun ω => gap q (ξ k ω)) = fun ω => ∑ k ∈ range p, gap q (ξ k ω) := by
      funext ω
      simp
    rw [this]
    exact hsum)] at hV
  have hmean : P[∑ k ∈ range p, fun ω => gap q (ξ k ω)] = 0 := by
    simp only [Finset.sum_apply]
    rw [integral_finsetSum _ fun k _ => (hm k).integrable one_le_two]
    simp [h0]
  rw [hmean] at hV
  have he : ∫ ω, gapSum ξ q p ω ^ 2 ∂P = ((Real.sqrt p)⁻¹) ^ 2 * P[(∑ k ∈ range p, fun ω => gap q (ξ k ω)) ^ 2] := by
    rw [← integral_const_mul]
    refine integral_congr_ae (ae_of_all _ fun ω => ?_)
    simp [gapSum, mul_pow]
  have hV' : P[(∑ k ∈ range p, fun ω => gap q (ξ k ω)) ^ 2] = p * Var[gap q; Measure.pi fun _ : Fin n => ν] := by
    linarith
  rw [he, hV', inv_pow, Real.sq_sqrt (Nat.cast_nonneg p), ← mul_assoc]
  have hvar := variance_nonneg (gap q) (Measure.pi fun _ : Fin n => ν)
  rcases Nat.eq_zero_or_pos p with rfl | hp
  · simp [hvar]
  · have hp0 : (p : ℝ) ≠ 0 := by positivity
    rw [inv_mul_cancel₀ hp0, one_mul]

/-! ### The central limit theorem for the coordinates -/

variable {d : ℕ} {β : Fin d → Pairs n → ℝ}

/-- The products of the numbers of a coordinate, in the coordinates `β`. -/
noncomputable def products (β : Fin d → Pairs n → ℝ) (x : Fin n → ℝ) : Fin d → ℝ :=
  fun a => ∑ q, β a q * -(x q.1.1 * x q.1.2)

@[fun_prop]
theorem measurable_products (β : Fin d → Pairs n → ℝ) : Measurable (products β) := by
  unfold products
  fun_prop

/-- The remainders in the coordinates `β`. -/
noncomputable def remainders (β : Fin d → Pairs n → ℝ) (ξ : ℕ → Ω → Fin n → ℝ) (p : ℕ) (ω : Ω) : Fin d → ℝ :=
  fun a => ∑ q, β a q * rest ξ q p ω

omit [MeasurableSpace Ω] in
/-- The distances in the coordinates `β`. -/
theorem coords_dist (hβ : ∀ a (f : Fin n → ℝ), ∑ q : Pairs n, β a q * (f q.1.1 + f q.1.2) = 0) (p : ℕ) (ω : Ω) :
    Real.sqrt 2 • coords β (Spec.distMat 1 fun i (k : Fin p) => ξ k ω i)
      = VectorClt.scaled (fun k ω => products β (ξ k ω)) p ω + remainders β ξ p ω := by
  funext a
  obtain ⟨f, hf⟩ : ∃ f : Fin n → ℝ, f = fun i => (Real.sqrt p)⁻¹ * ∑ k ∈ range p, (ξ k ω i ^ 2 - 1) / 2 + Real.sqrt p :=
    ⟨_, rfl⟩
  have h (q : Pairs n) : Real.sqrt 2 * Spec.distMat 1 (fun i (k : Fin p) => ξ k ω i) q.1.1 q.1.2
      = (f q.1.1 + f q.1.2) + (Real.sqrt p)⁻¹ * (∑ k ∈ range p, -(ξ k ω q.1.1 * ξ k ω q.1.2)) + rest ξ q p ω := by
    have h1 : Spec.distMat 1 (fun i (k : Fin p) => ξ k ω i) q.1.1 q.1.2
        = Real.sqrt (∑ k ∈ range p, (ξ k ω q.1.1 - ξ k ω q.1.2) ^ 2) := by
      rw [Spec.distMat, Spec.dist, Real.rpow_one, Finset.sum_range]
    have h2 : gapSum ξ q p ω / 2 = (Real.sqrt p)⁻¹ * ∑ k ∈ range p, (ξ k ω q.1.1 ^ 2 - 1) / 2
        + (Real.sqrt p)⁻¹ * ∑ k ∈ range p, (ξ k ω q.1.2 ^ 2 - 1) / 2
        + (Real.sqrt p)⁻¹ * ∑ k ∈ range p, -(ξ k ω q.1.1 * ξ k ω q.1.2) := by
      rw [← mul_add, ← mul_add, ← Finset.sum_add_distrib, ← Finset.sum_add_distrib, gapSum, mul_div_assoc, Finset.sum_div]
      congr 1
      refine Finset.sum_congr rfl fun k _ => ?_
      unfold gap
      ring
    rw [h1, rest, h2, hf]
    ring
  have h3 : (Real.sqrt 2 • coords β (Spec.distMat 1 fun i (k : Fin p) => ξ k ω i)) a
      = ∑ q : Pairs n, β a q * (Real.sqrt 2 * Spec.distMat 1 (fun i (k : Fin p) => ξ k ω i) q.1.1 q.1.2) := by
    rw [Pi.smul_apply, smul_eq_mul, coords, Finset.mul_sum]
    exact Finset.sum_congr rfl fun q _ => by ring
  rw [h3]
  simp only [h, mul_add, Finset.sum_add_distrib]
  have h4 := hβ a f
  simp only [mul_add, Finset.sum_add_distrib] at h4
  rw [h4, zero_add, Pi.add_apply]
  congr 1
  simp only [VectorClt.scaled, products]
  rw [Finset.sum_comm, Finset.mul_sum]
  refine Finset.sum_congr rfl fun q _ => ?_
  rw [← Finset.mul_sum]
  ring

theorem len_le (u : Fin d → ℝ) : StudentLaw.len u ≤ ∑ a, |u a| := by
  unfold StudentLaw.len
  refine Real.sqrt_le_iff.2 ⟨Finset.sum_nonneg fun _ _ => abs_nonneg _, ?_⟩
  simp only [← sq_abs (u _)]
  exact Finset.sum_sq_le_sq_sum_of_nonneg fun _ _ => abs_nonneg _

omit [MeasurableSpace Ω] in
theorem len_remainders_le (p : ℕ) (ω : Ω) :
    StudentLaw.len (remainders β ξ p ω) ≤ ∑ a, ∑ q, |β a q| * (gapSum ξ q p ω ^ 2 / (4 * Real.sqrt p)) := by
  refine (len_le _).trans (Finset.sum_le_sum fun a _ => (Finset.abs_sum_le_sum_abs _ _).trans ?_)
  refine Finset.sum_le_sum fun q _ => ?_
  rw [abs_mul]
  exact mul_le_mul_of_nonneg_left (abs_rest_le q p ω) (abs_nonneg _)

theorem remainders_tendsto (hν : Standard ν) (hξ : Spec.Coordinates P ξ ν) {ε : ℝ} (hε : 0 < ε) :
    Tendsto (fun p => P {ω | ε ≤ StudentLaw.len (remainders β ξ p ω)}) atTop (𝓝 0) := by
  obtain ⟨C, hC⟩ : ∃ C : ℝ, C = ∑ a, ∑ q, |β a q| * (Var[gap q; Measure.pi fun _ : Fin n => ν] / 4) := ⟨_, rfl⟩
  have hb (p : ℕ) : P {ω | ε ≤ StudentLaw.len (remainders β ξ p ω)} ≤ ENNReal.ofReal (C / ε * (Real.sqrt p)⁻¹) := by
    obtain ⟨T, hT⟩ : ∃ T : Ω → ℝ, T = fun ω => ∑ a, ∑ q, |β a q| * (gapSum ξ q p ω ^ 2 / (4 * Real.sqrt p)) := ⟨_, rfl⟩
    have hi (a : Fin d) (q : Pairs n) : Integrable (fun ω => |β a q| * (gapSum ξ q p ω ^ 2 / (4 * Real.sqrt p))) P :=
      ((integral_gapSum_sq hν hξ q p).1.div_const _).const_mul _
    have hTi : Integrable T P := by
      rw [hT]
      exact integrable_finsetSum _ fun a _ => integrable_finsetSum _ fun q _ => hi a q
    have hT0 (ω : Ω) : 0 ≤ T ω := by
      rw [hT]
      positivity
    have hTint : ∫ ω, T ω ∂P ≤ C * (Real.sqrt p)⁻¹ := by
      rw [hT, integral_finsetSum _ fun a _ => integrable_finsetSum _ fun q _ => hi a q, hC, Finset.sum_mul]
      refine Finset.sum_le_sum fun a _ => ?_
      rw [integral_finsetSum _ fun q _ => hi a q, Finset.sum_mul]
      refine Finset.sum_le_sum fun q _ => ?_
      rw [integral_const_mul, integral_div]
      have h1 := (integral_gapSum_sq hν hξ q p).2
      rw [mul_assoc]
      refine mul_le_mul_of_nonneg_left ?_ (abs_nonneg _)
      rw [div_mul_eq_div_div, div_eq_mul_inv _ (Real.sqrt p)]
      gcongr
    have hM := mul_meas_ge_le_integral_of_nonneg (ae_of_all P hT0) hTi ε
    have hle : P.real {ω | ε ≤ StudentLaw.len (remainders β ξ p ω)} ≤ C / ε * (Real.sqrt p)⁻¹ := by
      have h1 : P.real {ω | ε ≤ StudentLaw.len (remainders β ξ p ω)} ≤ P.real {ω | ε ≤ T ω} := by
        refine measureReal_mono fun ω hω => ?_
        have h2 : ε ≤ StudentLaw.len (remainders β ξ p ω) := hω
        have h3 := h2.trans (len_remainders_le p ω)
        rw [hT]
        exact h3
      refine h1.trans ?_
      rw [div_mul_eq_mul_div, le_div_iff₀ hε, mul_comm]
      exact hM.trans hTint
    rw [← ENNReal.ofReal_toReal (measure_ne_top P _)]
    exact ENNReal.ofReal_le_ofReal hle
  have h0 : Tendsto (fun p : ℕ => ENNReal.ofReal (C / ε * (Real.sqrt p)⁻¹)) atTop (𝓝 0) := by
    have h1 : Tendsto (fun p : ℕ => C / ε * (Real.sqrt p)⁻¹) atTop (𝓝 (C / ε * 0)) :=
      (tendsto_inv_atTop_zero.comp (Real.tendsto_sqrt_atTop.comp tendsto_natCast_atTop_atTop)).const_mul _
    rw [mul_zero] at h1
    have h2 := ENNReal.tendsto_ofReal h1
    rwa [ENNReal.ofReal_zero] at h2
  exact tendsto_of_tendsto_of_tendsto_of_le_of_le tendsto_const_nhds h0 (fun _ => zero_le) hb

/-- In high dimension the coordinates of the distances become independent normal variables. -/
theorem coords_tendsto (hν : Standard ν) (hξ : Spec.Coordinates P ξ ν)
    (ho : ∀ a c, ∑ q, β a q * β c q = if a = c then 1 else 0)
    (hβ : ∀ a (f : Fin n → ℝ), ∑ q : Pairs n, β a q * (f q.1.1 + f q.1.2) = 0) :
    TendstoInDistribution (fun (p : ℕ) ω =>
        (WithLp.toLp 2 (Real.sqrt 2 • coords β (Spec.distMat 1 fun i (k : Fin p) => ξ k ω i)) : EuclideanSpace ℝ (Fin d)))
      atTop id (fun _ => P) (stdGaussian (EuclideanSpace ℝ (Fin d))) := by
  simp only [coords_dist hβ]
  have mX := hξ.measurable
  have hm (a : Fin d) : MemLp (fun x : Fin n → ℝ => products β x a) 2 (Measure.pi fun _ : Fin n => ν) :=
    memLp_finsetSum _ fun q _ => ((memLp_mul hν q.1.1 q.1.2).neg).const_mul _
  have mP (a : Fin d) : Measurable fun x : Fin n → ℝ => products β x a := by fun_prop
  have hprod (q : Pairs n) := (memLp_mul hν q.1.1 q.1.2).integrable one_le_two
  refine VectorClt.tendsto_scaled_add (fun k => by fun_prop) ?_ ?_ ?_ ?_ ?_ ?_ ?_
  · exact hξ.indep.comp (fun _ => products β) fun _ => measurable_products β
  · intro k
    have h (k : ℕ) : P.map (fun ω => products β (ξ k ω)) = (Measure.pi fun _ : Fin n => ν).map (products β) := by
      rw [← hξ.law k, Measure.map_map (measurable_products β) (mX k)]
      rfl
    rw [h, h]
  · intro a
    rw [integral_comp hξ 0 (mP a)]
    unfold products
    simp only [mul_neg]
    rw [integral_finsetSum _ fun q _ => ((hprod q).const_mul _).fun_neg]
    refine Finset.sum_eq_zero fun q _ => ?_
    rw [integral_neg, integral_const_mul, integral_mul hν q.2.ne]
    simp
  · exact fun a => memLp_comp hξ 0 (mP a) (hm a)
  · intro a c
    rw [integral_comp hξ 0 (F := fun x => products β x a * products β x c) ((mP a).mul (mP c)), ← ho a c]
    have h1 (x : Fin n → ℝ) : products β x a * products β x c
        = ∑ q, ∑ q' : Pairs n, β a q * β c q' * (x q.1.1 * x q.1.2 * (x q'.1.1 * x q'.1.2)) := by
      unfold products
      rw [Finset.sum_mul_sum]
      exact Finset.sum_congr rfl fun q _ => Finset.sum_congr rfl fun q' _ => by ring
    simp only [h1]
    have hi (q q' : Pairs n) := integrable_mul4 hν q.1.1 q.1.2 q'.1.1 q'.1.2
    rw [integral_finsetSum _ fun q _ => integrable_finsetSum _ fun q' _ => (hi q q').const_mul _]
    refine Finset.sum_congr rfl fun q _ => ?_
    rw [integral_finsetSum _ fun q' _ => (hi q q').const_mul _]
    simp only [integral_const_mul, integral_mul4 hν, mul_ite, mul_one, mul_zero, Finset.sum_ite_eq, mem_univ, if_true]
  · intro p
    have := measurable_rest hξ
    unfold remainders
    fun_prop
  · exact fun ε hε => remainders_tendsto hν hξ hε

/-! ### The correlation -/

theorem len_eq_zero {u : Fin d → ℝ} (h : StudentLaw.len u = 0) (a : Fin d) : u a = 0 := by
  have h1 := StudentLaw.len_sq u
  rw [h] at h1
  have h2 := (Finset.sum_eq_zero_iff_of_nonneg fun i _ => sq_nonneg (u i)).1 (by linarith) a (mem_univ a)
  exact pow_eq_zero_iff two_ne_zero |>.1 h2

theorem cast_dof (hn : 3 < n) : ((n * (n - 3) / 2 - 1 : ℕ) : ℝ) = (n : ℝ) * ((n : ℝ) - 3) / 2 - 1 := by
  obtain ⟨k, rfl⟩ : ∃ k, n = k + 4 := ⟨n - 4, by omega⟩
  have e2 : k + 4 - 3 = k + 1 := by omega
  rw [e2]
  have hd : 2 ∣ (k + 4) * (k + 1) := by
    rcases Nat.even_or_odd k with h | h
    · exact Dvd.dvd.mul_right (Nat.dvd_add h.two_dvd (by norm_num)) _
    · exact Dvd.dvd.mul_left h.add_one.two_dvd _
  have h1 : 1 ≤ (k + 4) * (k + 1) / 2 := by
    have : 4 ≤ (k + 4) * (k + 1) := by nlinarith
    omega
  rw [Nat.cast_sub h1, Nat.cast_div hd (by norm_num)]
  push_cast
  ring

/-- The excess of the share of a direction over a critical value. -/
noncomputable def excess (ρ : ℝ) (z : EuclideanSpace ℝ (Fin d) × EuclideanSpace ℝ (Fin d)) : ℝ := ⟪z.2, z.1⟫ - ρ * ‖z.1‖

theorem continuous_excess (ρ : ℝ) : Continuous (excess (d := d) ρ) := by
  unfold excess
  fun_prop

theorem excess_pos {m : ℕ} (hm : 0 < m) {τ : ℝ} (hτ : 0 ≤ τ) {c : EuclideanSpace ℝ (Fin (m + 1))} (hc : ‖c‖ = 1) :
    stdGaussian (EuclideanSpace ℝ (Fin (m + 1))) {u | 0 < excess (τ / Real.sqrt (m + τ ^ 2)) (u, c)}
      = ENNReal.ofReal (1 - Spec.studentCdf m τ) := by
  have h := VectorClt.share_direction hc (S := {z | τ / Real.sqrt (m + τ ^ 2) * z.2 < z.1})
    (measurableSet_lt (by fun_prop) (by fun_prop))
  simp only [Set.mem_ofPred_eq] at h
  rw [StudentLaw.share_law hm hτ] at h
  rw [← h]
  simp only [excess, sub_pos]

theorem excess_zero {m : ℕ} (hm : 0 < m) {τ : ℝ} (hτ : 0 ≤ τ) {c : EuclideanSpace ℝ (Fin (m + 1))} (hc : ‖c‖ = 1) :
    stdGaussian (EuclideanSpace ℝ (Fin (m + 1))) {u | excess (τ / Real.sqrt (m + τ ^ 2)) (u, c) = 0} = 0 := by
  have h := VectorClt.share_direction hc (S := {z | τ / Real.sqrt (m + τ ^ 2) * z.2 = z.1})
    (measurableSet_eq_fun (by fun_prop) (by fun_prop))
  simp only [Set.mem_ofPred_eq] at h
  rw [StudentLaw.share_null hm hτ] at h
  refine measure_mono_null (fun u hu => ?_) h
  have hu' : excess (τ / Real.sqrt (m + τ ^ 2)) (u, c) = 0 := hu
  exact (sub_eq_zero.1 hu').symm

/-- If a variable converges in distribution and the limit does not have an atom at zero, its signs converge. -/
theorem sign_tendsto {Ω' : Type*} [MeasurableSpace Ω'] {Q : Measure Ω'} [IsProbabilityMeasure Q] {W : ℕ → Ω → ℝ} {Z : Ω' → ℝ}
    (h : TendstoInDistribution W atTop Z (fun _ => P) Q) (h0 : Q {z | Z z = 0} = 0) {A : ℕ → Set Ω}
    (hA : ∀ p, {ω | 0 < W p ω} ⊆ A p) (hA' : ∀ p, A p ⊆ {ω | 0 ≤ W p ω}) :
    Tendsto (fun p => P (A p)) atTop (𝓝 (Q {z | 0 < Z z})) := by
  have hmW := h.forall_aemeasurable
  have hmZ := h.aemeasurable_limit
  have hlim : Q.map Z {0} = 0 := by
    rw [Measure.map_apply_of_aemeasurable hmZ (measurableSet_singleton _)]
    exact h0
  have h1 := ProbabilityMeasure.tendsto_measure_of_null_frontier_of_tendsto' h.tendsto (E := Set.Ioi 0) (by
    rw [frontier_Ioi]
    exact hlim)
  have h2 := ProbabilityMeasure.tendsto_measure_of_null_frontier_of_tendsto' h.tendsto (E := Set.Ici 0) (by
    rw [frontier_Ici]
    exact hlim)
  have e1 (p : ℕ) : P.map (W p) (Set.Ioi 0) = P {ω | 0 < W p ω} := Measure.map_apply_of_aemeasurable (hmW p) measurableSet_Ioi
  have e2 (p : ℕ) : P.map (W p) (Set.Ici 0) = P {ω | 0 ≤ W p ω} := Measure.map_apply_of_aemeasurable (hmW p) measurableSet_Ici
  have e3 : Q.map Z (Set.Ioi 0) = Q {z | 0 < Z z} := Measure.map_apply_of_aemeasurable hmZ measurableSet_Ioi
  have e4 : Q.map Z (Set.Ici 0) = Q {z | 0 < Z z} := by
    rw [← e3]
    refine le_antisymm ?_ (measure_mono Set.Ioi_subset_Ici_self)
    rw [← Set.Ioi_union_left]
    refine (measure_union_le _ _).trans ?_
    rw [hlim, add_zero]
  refine tendsto_of_tendsto_of_tendsto_of_le_of_le (g := fun p => P {ω | 0 < W p ω}) (h := fun p => P {ω | 0 ≤ W p ω}) ?_ ?_
    (fun p => measure_mono (hA p)) fun p => measure_mono (hA' p)
  · rw [← e3]
    exact h1.congr e1
  · rw [← e4]
    exact h2.congr e2

/-- The share of directions that vary with the dimension. -/
theorem share_tendsto {m : ℕ} (hm : 0 < m) {U : ℕ → Ω → EuclideanSpace ℝ (Fin (m + 1))}
    (hU : TendstoInDistribution U atTop id (fun _ => P) (stdGaussian (EuclideanSpace ℝ (Fin (m + 1)))))
    {c : ℕ → EuclideanSpace ℝ (Fin (m + 1))} (hc : ∀ p, ‖c p‖ = 1) {τ : ℝ} (hτ : 0 < τ) {A : ℕ → Set Ω}
    (hA : ∀ p, {ω | 0 < excess (τ / Real.sqrt (m + τ ^ 2)) (U p ω, c p)} ⊆ A p)
    (hA' : ∀ p, A p ⊆ {ω | 0 ≤ excess (τ / Real.sqrt (m + τ ^ 2)) (U p ω, c p)}) :
    Tendsto (fun p => P (A p)) atTop (𝓝 (ENNReal.ofReal (1 - Spec.studentCdf m τ))) := by
  refine tendsto_of_subseq_tendsto fun ns hns => ?_
  obtain ⟨c₀, hc₀, φ, hφ, hlim⟩ := (isCompact_sphere (0 : EuclideanSpace ℝ (Fin (m + 1))) 1).tendsto_subseq
    (x := fun i => c (ns i)) fun i => by simp [hc]
  have hc₀' : ‖c₀‖ = 1 := by simpa using hc₀
  refine ⟨φ, ?_⟩
  have hsub : Tendsto (fun i => ns (φ i)) atTop atTop := hns.comp hφ.tendsto_atTop
  have h1 : TendstoInDistribution (fun i => U (ns (φ i))) atTop id (fun _ => P)
      (stdGaussian (EuclideanSpace ℝ (Fin (m + 1)))) :=
    ⟨fun i => hU.forall_aemeasurable _, hU.aemeasurable_limit, hU.tendsto.comp hsub⟩
  have h2 : TendstoInMeasure P (fun i (_ : Ω) => c (ns (φ i))) atTop fun _ => c₀ :=
    tendstoInMeasure_of_tendsto_ae (fun i => aestronglyMeasurable_const) (ae_of_all _ fun _ => hlim)
  have h3 := h1.continuous_comp_prodMk_of_tendstoInMeasure_const (continuous_excess (τ / Real.sqrt (m + τ ^ 2))) h2
    fun i => aemeasurable_const
  rw [← excess_pos hm hτ.le hc₀']
  exact sign_tendsto h3 (excess_zero hm hτ.le hc₀') (fun i => hA _) fun i => hA' _

/-- The correlation of the distances between standardised observations in high dimension with any other matrices. -/
theorem correlation_tendsto (hn : 3 < n) (hν : Standard ν) (hξ : Spec.Coordinates P ξ ν) {b : ℕ → Fin n → Fin n → ℝ}
    (hb : ∀ p, Symm (b p)) (hb0 : ∀ p i, b p i i = 0) (hne : ∀ p, Spec.uDcovSqr (b p) (b p) ≠ 0) {σ τ : ℝ} (hσ : 0 < σ)
    (hτ : 0 < τ) :
    Tendsto (fun p : ℕ => P {ω | τ / Real.sqrt ((n : ℝ) * ((n : ℝ) - 3) / 2 - 1 + τ ^ 2)
        ≤ Spec.uDcorSqr (σ • Spec.distMat 1 fun i (k : Fin p) => ξ k ω i) (b p)}) atTop
      (𝓝 (ENNReal.ofReal (1 - Spec.studentCdf ((n : ℝ) * ((n : ℝ) - 3) / 2 - 1) τ))) := by
  obtain ⟨β, ho, hβ, hr⟩ := exists_basis hn
  rw [← cast_dof hn]
  have hm : 0 < n * (n - 3) / 2 - 1 := by
    obtain ⟨k, rfl⟩ : ∃ k, n = k + 4 := ⟨n - 4, by omega⟩
    have e2 : k + 4 - 3 = k + 1 := by omega
    rw [e2]
    have : 4 ≤ (k + 4) * (k + 1) := by nlinarith
    omega
  generalize n * (n - 3) / 2 - 1 = m at β ho hβ hr hm ⊢
  have hρ : 0 < τ / Real.sqrt (m + τ ^ 2) := div_pos hτ (Real.sqrt_pos.2 (by positivity))
  have hl (p : ℕ) : 0 < StudentLaw.len (coords β (b p)) := by
    refine lt_of_le_of_ne (StudentLaw.len_nonneg _) fun h => hne p ?_
    rw [hr _ _ (hb p) (hb0 p) (hb p) (hb0 p)]
    have : ∑ a, coords β (b p) a * coords β (b p) a = StudentLaw.len (coords β (b p)) ^ 2 := by
      rw [StudentLaw.len_sq]
      exact Finset.sum_congr rfl fun a _ => by ring
    rw [this, ← h]
    ring
  obtain ⟨c, hc⟩ : ∃ c : ℕ → EuclideanSpace ℝ (Fin (m + 1)),
    c = fun p => (StudentLaw.len (coords β (b p)))⁻¹ • WithLp.toLp 2 (coords β (b p)) := ⟨_, rfl⟩
  have hc1 (p : ℕ) : ‖c p‖ = 1 := by
    rw [hc, norm_smul, norm_inv, VectorClt.norm_toLp, Real.norm_eq_abs, abs_of_pos (hl p), inv_mul_cancel₀ (hl p).ne']
  have key (p : ℕ) (ω : Ω) : ∃ r L : ℝ, 0 ≤ L ∧ (L = 0 → r = 0)
      ∧ Spec.uDcorSqr (σ • Spec.distMat 1 fun i (k : Fin p) => ξ k ω i) (b p) = r / L
      ∧ ∀ ρ : ℝ, excess ρ ((WithLp.toLp 2 (Real.sqrt 2 • coords β (Spec.distMat 1 fun i (k : Fin p) => ξ k ω i)) :
          EuclideanSpace ℝ (Fin (m + 1))), c p) = Real.sqrt 2 * (r - ρ * L) := by
    have hs : Symm (Spec.distMat 1 fun i (k : Fin p) => ξ k ω i) := Spec.distMat_symm _ _
    have hd := Spec.distMat_diag (α := 1) one_ne_zero fun i (k : Fin p) => ξ k ω i
    have hs' : Symm (σ • Spec.distMat 1 fun i (k : Fin p) => ξ k ω i) := fun i j => by
      simp only [Pi.smul_apply, hs i j]
    have hd' (i) : (σ • Spec.distMat 1 fun i (k : Fin p) => ξ k ω i) i i = 0 := by
      simp only [Pi.smul_apply, hd i, smul_zero]
    have h1 := ratio_coords hn (hr _ _ hs' hd' (hb p) (hb0 p)) (hr _ _ hs' hd' hs' hd')
      (hr _ _ (hb p) (hb0 p) (hb p) (hb0 p))
    have h2 : coords β (σ • Spec.distMat 1 fun i (k : Fin p) => ξ k ω i)
        = σ • coords β (Spec.distMat 1 fun i (k : Fin p) => ξ k ω i) := by
      funext a
      simp only [coords, Pi.smul_apply, smul_eq_mul, Finset.mul_sum]
      exact Finset.sum_congr rfl fun q _ => by ring
    rw [h2, StudentLaw.len_smul hσ.le] at h1
    obtain ⟨g, hg⟩ : ∃ g, g = coords β (Spec.distMat 1 fun i (k : Fin p) => ξ k ω i) := ⟨_, rfl⟩
    rw [← hg] at h1 ⊢
    refine ⟨(∑ a, g a * coords β (b p) a) / StudentLaw.len (coords β (b p)), StudentLaw.len g, StudentLaw.len_nonneg _,
      fun h => ?_, ?_, fun ρ => ?_⟩
    · rw [Finset.sum_eq_zero fun a _ => by rw [len_eq_zero h, zero_mul], zero_div]
    · rw [h1]
      have : ∑ a, (σ • g) a * coords β (b p) a = σ * ∑ a, g a * coords β (b p) a := by
        rw [Finset.mul_sum]
        exact Finset.sum_congr rfl fun a _ => by rw [Pi.smul_apply, smul_eq_mul, mul_assoc]
      rw [this, mul_assoc σ, mul_div_mul_left _ _ hσ.ne', div_div, mul_comm (StudentLaw.len (coords β (b p)))]
    · have h3 : ⟪c p, (WithLp.toLp 2 (Real.sqrt 2 • g) : EuclideanSpace ℝ (Fin (m + 1)))⟫
          = Real.sqrt 2 * ((∑ a, g a * coords β (b p) a) / StudentLaw.len (coords β (b p))) := by
        rw [hc, real_inner_smul_left, PiLp.inner_apply, div_eq_mul_inv, mul_comm _ (StudentLaw.len (coords β (b p)))⁻¹,
          mul_left_comm, Finset.mul_sum (a := Real.sqrt 2)]
        congr 1
        refine Finset.sum_congr rfl fun a _ => ?_
        simp only [RCLike.inner_apply, conj_trivial, Pi.smul_apply, smul_eq_mul]
        ring
      rw [excess, h3, VectorClt.norm_toLp, StudentLaw.len_smul (Real.sqrt_nonneg 2)]
      ring
  have h2 : 0 < Real.sqrt 2 := Real.sqrt_pos.2 two_pos
  refine share_tendsto hm (coords_tendsto hν hξ ho hβ) hc1 hτ (fun p ω hω => ?_) fun p ω hω => ?_
  · obtain ⟨r, L, hL, h0, h3, h4⟩ := key p ω
    rw [Set.mem_ofPred_eq, h4] at hω
    rw [Set.mem_ofPred_eq, h3]
    have h5 := (mul_pos_iff_of_pos_left h2).1 hω
    rcases hL.eq_or_lt with h | h
    · rw [← h, h0 h.symm] at h5
      simp at h5
    · rw [le_div_iff₀ h]
      linarith
  · obtain ⟨r, L, hL, h0, h3, h4⟩ := key p ω
    rw [Set.mem_ofPred_eq, h3] at hω
    rw [Set.mem_ofPred_eq, h4]
    refine mul_nonneg h2.le ?_
    rcases hL.eq_or_lt with h | h
    · rw [← h, div_zero] at hω
      linarith
    · rw [le_div_iff₀ h] at hω
      linarith

end Dcor.HighDimension

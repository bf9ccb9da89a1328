/-
How much one observation changes the statistics, if the distances are bounded.
-/
import Verif.Proofs.Deviation
import Verif.Proofs.Expectation
import Verif.Proofs.EnergySpec

namespace Dcor.Concentration

open Finset MeasureTheory ProbabilityTheory Filter

variable {n m p q : ℕ} {α : ℝ}

/-- The pairs of different indices one of which is `k`. -/
def touch (k i j : Fin n) : ℝ :=
  (if i = k then 1 else 0) + (if j = k then 1 else 0) - 2 * (if i = k then 1 else 0) * if j = k then 1 else 0

theorem touch_row (k i : Fin n) : ∑ j, touch k i j = 1 + (n - 2) * if i = k then 1 else 0 := by
  unfold touch
  rw [sum_sub_distrib, sum_add_distrib, ← mul_sum]
  by_cases h : i = k
  · simp [h]
    ring
  · simp [h]

theorem touch_sum (k : Fin n) : ∑ i, ∑ j, touch k i j = 2 * (n - 1) := by
  simp only [touch_row]
  rw [sum_add_distrib, ← mul_sum]
  simp
  ring

/-- Matrices of distances up to `A` that differ in the row and the column `k`. -/
structure Differ (a a' : Fin n → Fin n → ℝ) (k : Fin n) (A : ℝ) : Prop where
  symm : Symm a
  symm' : Symm a'
  diag : ∀ i, a i i = 0
  diag' : ∀ i, a' i i = 0
  nonneg : ∀ i j, 0 ≤ a i j
  nonneg' : ∀ i j, 0 ≤ a' i j
  le : ∀ i j, a i j ≤ A
  le' : ∀ i j, a' i j ≤ A
  eq : ∀ i j, i ≠ k → j ≠ k → a i j = a' i j

theorem abs_sub_le_of_range {x y M : ℝ} (hx : 0 ≤ x) (hy : 0 ≤ y) (hx' : x ≤ M) (hy' : y ≤ M) : |x - y| ≤ M := by
  rw [abs_le]
  constructor <;> linarith

theorem mul_range {x y M N : ℝ} (hx : 0 ≤ x) (hy : 0 ≤ y) (hx' : x ≤ M) (hy' : y ≤ N) : 0 ≤ x * y ∧ x * y ≤ M * N :=
  ⟨mul_nonneg hx hy, mul_le_mul hx' hy' hy (hx.trans hx')⟩

theorem mul_change {x x' y y' M N δ ε : ℝ} (hy : 0 ≤ y) (hx' : 0 ≤ x') (hy2 : y ≤ N) (hx2 : x' ≤ M) (h1 : |x - x'| ≤ δ)
    (h2 : |y - y'| ≤ ε) : |x * y - x' * y'| ≤ δ * N + M * ε := by
  rw [show x * y - x' * y' = (x - x') * y + x' * (y - y') by ring]
  refine (abs_add_le _ _).trans ?_
  rw [abs_mul, abs_mul, abs_of_nonneg hy, abs_of_nonneg hx']
  exact add_le_add (mul_le_mul h1 hy2 hy ((abs_nonneg _).trans h1)) (mul_le_mul hx2 h2 (abs_nonneg _) (hx'.trans hx2))

namespace Differ

variable {a a' b b' : Fin n → Fin n → ℝ} {k : Fin n} {A B : ℝ}

theorem pos (h : Differ a a' k A) : 0 ≤ A := (h.nonneg k k).trans (h.le k k)

/-- Off the row and the column nothing changes, elsewhere at most by `M`. -/
theorem touch_le {c c' : Fin n → Fin n → ℝ} {M : ℝ} (h0 : ∀ i, c i i = c' i i) (he : ∀ i j, i ≠ k → j ≠ k → c i j = c' i j)
    (hM : ∀ i j, |c i j - c' i j| ≤ M) (i j : Fin n) : |c i j - c' i j| ≤ M * touch k i j := by
  unfold touch
  by_cases hi : i = k <;> by_cases hj : j = k
  · subst hi hj
    simp only [h0, sub_self, abs_zero, if_pos]
    norm_num
  · simpa [hi, hj] using hM k j
  · simpa [hi, hj] using hM i k
  · simp [hi, hj, he i j hi hj]

theorem entry (h : Differ a a' k A) (i j : Fin n) : |a i j - a' i j| ≤ A * touch k i j :=
  touch_le (fun i => by rw [h.diag, h.diag']) h.eq
    (fun i j => abs_sub_le_of_range (h.nonneg i j) (h.nonneg' i j) (h.le i j) (h.le' i j)) i j

theorem row (h : Differ a a' k A) (i : Fin n) : |(∑ j, a i j) - ∑ j, a' i j| ≤ A * (1 + (n - 2) * if i = k then 1 else 0) := by
  rw [← sum_sub_distrib, ← touch_row, mul_sum]
  exact (abs_sum_le_sum_abs _ _).trans (sum_le_sum fun j _ => h.entry i j)

theorem total (h : Differ a a' k A) : |(∑ i, ∑ j, a i j) - ∑ i, ∑ j, a' i j| ≤ 2 * (n - 1) * A := by
  rw [← sum_sub_distrib, mul_comm, ← touch_sum k, mul_sum]
  refine (abs_sum_le_sum_abs _ _).trans (sum_le_sum fun i _ => ?_)
  rw [← sum_sub_distrib, mul_sum]
  exact (abs_sum_le_sum_abs _ _).trans (sum_le_sum fun j _ => h.entry i j)

omit k in
theorem row_range (hd : ∀ i, a i i = 0) (hn : ∀ i j, 0 ≤ a i j) (hl : ∀ i j, a i j ≤ A) (i : Fin n) :
    0 ≤ ∑ j, a i j ∧ ∑ j, a i j ≤ (n - 1) * A := by
  refine ⟨sum_nonneg fun j _ => hn i j, ?_⟩
  have : ∑ j, a i j ≤ ∑ j, (A - if j = i then A else 0) := by
    refine sum_le_sum fun j _ => ?_
    by_cases hj : j = i
    · subst hj
      simp [hd]
    · simpa [hj] using hl i j
  refine this.trans (le_of_eq ?_)
  rw [sum_sub_distrib]
  simp
  ring

omit k in
theorem total_range (hd : ∀ i, a i i = 0) (hn : ∀ i j, 0 ≤ a i j) (hl : ∀ i j, a i j ≤ A) :
    0 ≤ ∑ i, ∑ j, a i j ∧ ∑ i, ∑ j, a i j ≤ n * ((n - 1) * A) := by
  refine ⟨sum_nonneg fun i _ => (row_range hd hn hl i).1, ?_⟩
  refine (sum_le_sum fun i _ => (row_range hd hn hl i).2).trans (le_of_eq ?_)
  simp

theorem products (h : Differ a a' k A) (g : Differ b b' k B) :
    |(∑ i, ∑ j, a i j * b i j) - ∑ i, ∑ j, a' i j * b' i j| ≤ 2 * (n - 1) * (A * B) := by
  rw [← sum_sub_distrib, mul_comm, ← touch_sum k, mul_sum]
  refine (abs_sum_le_sum_abs _ _).trans (sum_le_sum fun i _ => ?_)
  rw [← sum_sub_distrib, mul_sum]
  refine (abs_sum_le_sum_abs _ _).trans (sum_le_sum fun j _ => ?_)
  refine touch_le (c := fun i j => a i j * b i j) (c' := fun i j => a' i j * b' i j) (fun i => by rw [h.diag, h.diag']; ring)
    (fun i j hi hj => by rw [h.eq i j hi hj, g.eq i j hi hj]) (fun i j => ?_) i j
  have r := mul_range (h.nonneg i j) (g.nonneg i j) (h.le i j) (g.le i j)
  have r' := mul_range (h.nonneg' i j) (g.nonneg' i j) (h.le' i j) (g.le' i j)
  exact abs_sub_le_of_range r.1 r'.1 r.2 r'.2

theorem rows (h : Differ a a' k A) (g : Differ b b' k B) :
    |(∑ i, (∑ j, a i j) * ∑ j, b i j) - ∑ i, (∑ j, a' i j) * ∑ j, b' i j| ≤ 3 * (n - 1) ^ 2 * (A * B) := by
  rw [← sum_sub_distrib]
  have hn : (1 : ℝ) ≤ n := by exact_mod_cast k.pos
  have hA := h.pos
  have hB := g.pos
  have key : ∀ i, |(∑ j, a i j) * (∑ j, b i j) - (∑ j, a' i j) * ∑ j, b' i j|
      ≤ A * B * (2 * (n - 1) + ((n - 1) ^ 2 - 2 * (n - 1)) * if i = k then 1 else 0) := by
    intro i
    have r1 := row_range h.diag h.nonneg h.le i
    have r1' := row_range h.diag' h.nonneg' h.le' i
    have r2 := row_range g.diag g.nonneg g.le i
    have r2' := row_range g.diag' g.nonneg' g.le' i
    by_cases hi : i = k
    · have r := mul_range r1.1 r2.1 r1.2 r2.2
      have r' := mul_range r1'.1 r2'.1 r1'.2 r2'.2
      refine (abs_sub_le_of_range r.1 r'.1 r.2 r'.2).trans (le_of_eq ?_)
      rw [if_pos hi]
      ring
    · have d1 := h.row i
      have d2 := g.row i
      rw [if_neg hi, mul_zero, add_zero, mul_one] at d1 d2
      refine (mul_change r2.1 r1'.1 r2.2 r1'.2 d1 d2).trans (le_of_eq ?_)
      rw [if_neg hi]
      ring
  refine (abs_sum_le_sum_abs _ _).trans ((sum_le_sum fun i _ => key i).trans (le_of_eq ?_))
  rw [← mul_sum, sum_add_distrib, ← mul_sum]
  simp
  ring

theorem totals (h : Differ a a' k A) (g : Differ b b' k B) :
    |(∑ i, ∑ j, a i j) * (∑ i, ∑ j, b i j) - (∑ i, ∑ j, a' i j) * ∑ i, ∑ j, b' i j| ≤ 4 * n * (n - 1) ^ 2 * (A * B) := by
  have r1' := total_range h.diag' h.nonneg' h.le'
  have r2 := total_range g.diag g.nonneg g.le
  refine (mul_change r2.1 r1'.1 r2.2 r1'.2 h.total g.total).trans (le_of_eq ?_)
  ring

/-- The bias-corrected covariance changes by at most `12 A B / (n - 4)`. -/
theorem uDcovSqr (hn : 4 < n) (h : Differ a a' k A) (g : Differ b b' k B) :
    |Spec.uDcovSqr a b - Spec.uDcovSqr a' b'| ≤ 12 * (A * B) / (n - 4) := by
  have hnR : (4 : ℝ) < n := by exact_mod_cast hn
  have p0 : (0 : ℝ) < n := by linarith
  have p1 : (0 : ℝ) < n - 1 := by linarith
  have p2 : (0 : ℝ) < n - 2 := by linarith
  have p3 : (0 : ℝ) < n - 3 := by linarith
  have p4 : (0 : ℝ) < n - 4 := by linarith
  have hAB : 0 ≤ A * B := mul_nonneg h.pos g.pos
  rw [Spec.uDcovSqr_eq_terms a b h.symm g.symm h.diag g.diag (by omega),
    Spec.uDcovSqr_eq_terms a' b' h.symm' g.symm' h.diag' g.diag' (by omega)]
  have e1 := h.products g
  have e2 := h.rows g
  have e3 := h.totals g
  obtain ⟨T1, h1⟩ : ∃ T, T = ∑ i, ∑ j, a i j * b i j := ⟨_, rfl⟩
  obtain ⟨T1', h1'⟩ : ∃ T, T = ∑ i, ∑ j, a' i j * b' i j := ⟨_, rfl⟩
  obtain ⟨T2, h2⟩ : ∃ T, T = ∑ i, (∑ j, a i j) * ∑ j, b i j := ⟨_, rfl⟩
  obtain ⟨T2', h2'⟩ : ∃ T, T = ∑ i, (∑ j, a' i j) * ∑ j, b' i j := ⟨_, rfl⟩
  obtain ⟨T3, h3⟩ : ∃ T, T = (∑ i, ∑ j, a i j) * ∑ i, ∑ j, b i j := ⟨_, rfl⟩
  obtain ⟨T3', h3'⟩ : ∃ T, T = (∑ i, ∑ j, a' i j) * ∑ i, ∑ j, b' i j := ⟨_, rfl⟩
  rw [← h1, ← h1'] at e1
  rw [← h2, ← h2'] at e2
  rw [← h3, ← h3'] at e3
  rw [← h1, ← h1', ← h2, ← h2', ← h3, ← h3']
  have e : T1 / (n * (n - 3)) - 2 * T2 / (n * ((n - 2) * (n - 3))) + T3 / (n * ((n - 1) * (n - 2) * (n - 3)))
      - (T1' / (n * (n - 3)) - 2 * T2' / (n * ((n - 2) * (n - 3))) + T3' / (n * ((n - 1) * (n - 2) * (n - 3))))
      = (T1 - T1') / (n * (n - 3)) - 2 * (T2 - T2') / (n * ((n - 2) * (n - 3)))
        + (T3 - T3') / (n * ((n - 1) * (n - 2) * (n - 3))) := by ring
  rw [e]
  have b1 : |(T1 - T1') / (n * (n - 3))| ≤ 2 * (n - 1) * (A * B) / (n * (n - 3)) := by
    rw [abs_div, abs_of_pos (by positivity : (0 : ℝ) < n * (n - 3))]
    gcongr
  have b2 : |2 * (T2 - T2') / (n * ((n - 2) * (n - 3)))| ≤ 2 * (3 * (n - 1) ^ 2 * (A * B)) / (n * ((n - 2) * (n - 3))) := by
    rw [abs_div, abs_of_pos (by positivity : (0 : ℝ) < n * ((n - 2) * (n - 3))), abs_mul, abs_two]
    gcongr
  have b3 : |(T3 - T3') / (n * ((n - 1) * (n - 2) * (n - 3)))|
      ≤ 4 * n * (n - 1) ^ 2 * (A * B) / (n * ((n - 1) * (n - 2) * (n - 3))) := by
    rw [abs_div, abs_of_pos (by positivity : (0 : ℝ) < n * ((n - 1) * (n - 2) * (n - 3)))]
    gcongr
  refine (abs_add_le _ _).trans ?_
  refine (add_le_add ((abs_sub _ _).trans (add_le_add b1 b2)) b3).trans ?_
  have e' : 2 * (n - 1) * (A * B) / (n * (n - 3)) + 2 * (3 * (n - 1) ^ 2 * (A * B)) / (n * ((n - 2) * (n - 3)))
      + 4 * n * (n - 1) ^ 2 * (A * B) / (n * ((n - 1) * (n - 2) * (n - 3)))
      = A * B * ((n - 1) * (12 * n - 10) / (n * (n - 2) * (n - 3)) : ℝ) := by
    field_simp
    ring
  rw [e', show 12 * (A * B) / ((n : ℝ) - 4) = A * B * (12 / (n - 4)) by ring]
  refine mul_le_mul_of_nonneg_left ?_ hAB
  rw [div_le_div_iff₀ (by positivity) p4]
  nlinarith [sq_nonneg (n - 2 : ℝ)]

/-- The covariance changes by at most `12 A B / n`. -/
theorem dcovSqr (h : Differ a a' k A) (g : Differ b b' k B) :
    |Spec.dcovSqr a b - Spec.dcovSqr a' b'| ≤ 12 * (A * B) / n := by
  have hn : (1 : ℝ) ≤ n := by exact_mod_cast k.pos
  have p0 : (0 : ℝ) < n := by linarith
  have p1 : (0 : ℝ) ≤ n - 1 := by linarith
  have hAB : 0 ≤ A * B := mul_nonneg h.pos g.pos
  rw [Spec.dcovSqr_eq_terms a b h.symm g.symm k.pos, Spec.dcovSqr_eq_terms a' b' h.symm' g.symm' k.pos]
  have e1 := h.products g
  have e2 := h.rows g
  have e3 := h.totals g
  obtain ⟨T1, h1⟩ : ∃ T, T = ∑ i, ∑ j, a i j * b i j := ⟨_, rfl⟩
  obtain ⟨T1', h1'⟩ : ∃ T, T = ∑ i, ∑ j, a' i j * b' i j := ⟨_, rfl⟩
  obtain ⟨T2, h2⟩ : ∃ T, T = ∑ i, (∑ j, a i j) * ∑ j, b i j := ⟨_, rfl⟩
  obtain ⟨T2', h2'⟩ : ∃ T, T = ∑ i, (∑ j, a' i j) * ∑ j, b' i j := ⟨_, rfl⟩
  obtain ⟨T3, h3⟩ : ∃ T, T = (∑ i, ∑ j, a i j) * ∑ i, ∑ j, b i j := ⟨_, rfl⟩
  obtain ⟨T3', h3'⟩ : ∃ T, T = (∑ i, ∑ j, a' i j) * ∑ i, ∑ j, b' i j := ⟨_, rfl⟩
  rw [← h1, ← h1'] at e1
  rw [← h2, ← h2'] at e2
  rw [← h3, ← h3'] at e3
  rw [← h1, ← h1', ← h2, ← h2', ← h3, ← h3']
  have e : T1 / (n : ℝ) ^ 2 - 2 * T2 / n ^ 3 + T3 / n ^ 4 - (T1' / n ^ 2 - 2 * T2' / n ^ 3 + T3' / n ^ 4)
      = (T1 - T1') / n ^ 2 - 2 * (T2 - T2') / n ^ 3 + (T3 - T3') / n ^ 4 := by ring
  rw [e]
  have b1 : |(T1 - T1') / (n : ℝ) ^ 2| ≤ 2 * (n - 1) * (A * B) / n ^ 2 := by
    rw [abs_div, abs_of_pos (by positivity : (0 : ℝ) < n ^ 2)]
    gcongr
  have b2 : |2 * (T2 - T2') / (n : ℝ) ^ 3| ≤ 2 * (3 * (n - 1) ^ 2 * (A * B)) / n ^ 3 := by
    rw [abs_div, abs_of_pos (by positivity : (0 : ℝ) < n ^ 3), abs_mul, abs_two]
    gcongr
  have b3 : |(T3 - T3') / (n : ℝ) ^ 4| ≤ 4 * n * (n - 1) ^ 2 * (A * B) / n ^ 4 := by
    rw [abs_div, abs_of_pos (by positivity : (0 : ℝ) < n ^ 4)]
    gcongr
  refine (abs_add_le _ _).trans ?_
  refine (add_le_add ((abs_sub _ _).trans (add_le_add b1 b2)) b3).trans ?_
  have e' : 2 * (n - 1) * (A * B) / (n : ℝ) ^ 2 + 2 * (3 * (n - 1) ^ 2 * (A * B)) / n ^ 3
      + 4 * n * (n - 1) ^ 2 * (A * B) / n ^ 4 = A * B * ((n - 1) * (12 * n - 10) / n ^ 3 : ℝ) := by
    field_simp
    ring
  rw [e', show 12 * (A * B) / (n : ℝ) = A * B * (12 / n) by ring]
  refine mul_le_mul_of_nonneg_left ?_ hAB
  rw [div_le_div_iff₀ (by positivity) p0]
  nlinarith [mul_nonneg p0.le p0.le]

end Differ

/-- The distances of a sample one observation of which is replaced. -/
theorem differ_dist {S : Type*} (hα : 0 < α) {K : Set S} {f : S → Fin p → ℝ} {A : ℝ}
    (hA : ∀ z ∈ K, ∀ z' ∈ K, Spec.dist α (f z) (f z') ≤ A) {z : Fin n → S} (hz : ∀ i, z i ∈ K) (k : Fin n) {s : S} (hs : s ∈ K) :
    Differ (Spec.distMat α fun i => f (z i)) (Spec.distMat α fun i => f (Function.update z k s i)) k A := by
  have hz' : ∀ i, Function.update z k s i ∈ K := fun i => by
    by_cases h : i = k
    · subst h
      simpa using hs
    · rw [Function.update_of_ne h]
      exact hz i
  exact ⟨Spec.distMat_symm _ _, Spec.distMat_symm _ _, Spec.distMat_diag hα.ne' _, Spec.distMat_diag hα.ne' _,
    fun _ _ => Spec.dist_nonneg _ _ _, fun _ _ => Spec.dist_nonneg _ _ _, fun i j => hA _ (hz i) _ (hz j),
    fun i j => hA _ (hz' i) _ (hz' j), fun i j hi hj => by
      simp only [Spec.distMat, Function.update_of_ne hi, Function.update_of_ne hj]⟩

/-! ### Energy distance -/

theorem cross_diff {K : Set (Fin p → ℝ)} {D : ℝ} (hD : ∀ z ∈ K, ∀ z' ∈ K, Spec.dist α z z' ≤ D) {x : Fin n → Fin p → ℝ}
    {y : Fin m → Fin p → ℝ} (hx : ∀ i, x i ∈ K) (hy : ∀ j, y j ∈ K) (hm : 0 < m) (k : Fin n) {s : Fin p → ℝ} (hs : s ∈ K) :
    |Spec.crossMean α x y - Spec.crossMean α (Function.update x k s) y| ≤ D / n := by
  have hn : (0 : ℝ) < n := by exact_mod_cast k.pos
  have hmR : (0 : ℝ) < m := by exact_mod_cast hm
  unfold Spec.crossMean
  rw [← sub_div, abs_div, abs_of_pos (by positivity : (0 : ℝ) < n * m), ← sum_sub_distrib]
  have key : ∀ i, |(∑ j, Spec.dist α (x i) (y j)) - ∑ j, Spec.dist α (Function.update x k s i) (y j)|
      ≤ if i = k then m * D else 0 := by
    intro i
    by_cases hi : i = k
    · subst hi
      rw [← sum_sub_distrib, if_pos rfl]
      refine (abs_sum_le_sum_abs _ _).trans ((sum_le_sum fun j _ => ?_ : _ ≤ ∑ _ : Fin m, D).trans (by simp))
      rw [Function.update_self]
      exact abs_sub_le_of_range (Spec.dist_nonneg _ _ _) (Spec.dist_nonneg _ _ _) (hD _ (hx _) _ (hy _)) (hD _ hs _ (hy _))
    · rw [Function.update_of_ne hi, if_neg hi]
      simp
  have : |∑ i, ((∑ j, Spec.dist α (x i) (y j)) - ∑ j, Spec.dist α (Function.update x k s i) (y j))| ≤ m * D := by
    refine (abs_sum_le_sum_abs _ _).trans ((sum_le_sum fun i _ => key i).trans (by simp))
  calc _ ≤ m * D / (n * m) := by gcongr
    _ = D / n := by field_simp

theorem self_diff (hα : 0 < α) {K : Set (Fin p → ℝ)} {D : ℝ} (hD : ∀ z ∈ K, ∀ z' ∈ K, Spec.dist α z z' ≤ D)
    {x : Fin n → Fin p → ℝ} (hx : ∀ i, x i ∈ K) (k : Fin n) {s : Fin p → ℝ} (hs : s ∈ K) :
    |Spec.crossMean α x x - Spec.crossMean α (Function.update x k s) (Function.update x k s)| ≤ 2 * D / n ∧
    |Spec.pairMean α x - Spec.pairMean α (Function.update x k s)| ≤ 2 * D / n := by
  have hn1 : (1 : ℝ) ≤ n := by exact_mod_cast k.pos
  have hn : (0 : ℝ) < n := by linarith
  have hd := differ_dist (f := id) hα hD hx k hs
  have ht := hd.total
  have h0 := hd.pos
  simp only [Spec.distMat, id] at ht
  have off : ∀ z : Fin n → Fin p → ℝ, ∑ i, ∑ j ∈ univ.filter (· ≠ i), Spec.dist α (z i) (z j) = ∑ i, ∑ j, Spec.dist α (z i) (z j) := by
    intro z
    refine sum_congr rfl fun i _ => ?_
    rw [sum_filter]
    refine sum_congr rfl fun j _ => ?_
    by_cases h : j = i
    · subst h
      simp [Spec.dist_self hα.ne']
    · simp [h]
  constructor
  · unfold Spec.crossMean
    rw [← sub_div, abs_div, abs_of_pos (by positivity : (0 : ℝ) < n * n)]
    calc _ ≤ 2 * (n - 1) * D / (n * n) := by gcongr
      _ ≤ 2 * n * D / (n * n) := by gcongr; linarith
      _ = 2 * D / n := by field_simp
  · unfold Spec.pairMean
    rw [off, off, ← sub_div]
    rcases hn1.lt_or_eq with h | h
    · have p1 : (0 : ℝ) < n - 1 := by linarith
      rw [abs_div, abs_of_pos (by positivity : (0 : ℝ) < n * (n - 1))]
      calc _ ≤ 2 * (n - 1) * D / (n * (n - 1)) := by gcongr
        _ = 2 * D / n := by field_simp
    · rw [← h]
      simp
      exact h0

theorem energy_diff (hα : 0 < α) {K : Set (Fin p → ℝ)} {D : ℝ} (hD : ∀ z ∈ K, ∀ z' ∈ K, Spec.dist α z z' ≤ D)
    {x : Fin n → Fin p → ℝ} {y : Fin m → Fin p → ℝ} (hx : ∀ i, x i ∈ K) (hy : ∀ j, y j ∈ K) (hm : 0 < m) (k : Fin n)
    {s : Fin p → ℝ} (hs : s ∈ K) :
    |Spec.energyU α x y - Spec.energyU α (Function.update x k s) y| ≤ 4 * D / n ∧
    |Spec.energyV α x y - Spec.energyV α (Function.update x k s) y| ≤ 4 * D / n := by
  have c := abs_le.1 (cross_diff hD hx hy hm k hs)
  obtain ⟨s1, s2⟩ := self_diff hα hD hx k hs
  have s1 := abs_le.1 s1
  have s2 := abs_le.1 s2
  have e1 : 2 * D / (n : ℝ) = 2 * (D / n) := by ring
  have e2 : 4 * D / (n : ℝ) = 4 * (D / n) := by ring
  rw [e1] at s1 s2
  rw [e2]
  unfold Spec.energyU Spec.energyV
  constructor <;> rw [abs_le] <;> constructor <;> linarith [c.1, c.2, s1.1, s1.2, s2.1, s2.2]

theorem energyU_comm (α : ℝ) (x : Fin n → Fin p → ℝ) (y : Fin m → Fin p → ℝ) : Spec.energyU α x y = Spec.energyU α y x := by
  unfold Spec.energyU
  rw [Spec.crossMean_comm α x y]
  ring

/-! ### Moments -/

theorem mean_range {S : Type*} [MeasurableSpace S] {μ : Measure S} [IsProbabilityMeasure μ] {K : Set S} (hK : ∀ᵐ z ∂μ, z ∈ K)
    {f : S → ℝ} {C : ℝ} (hf : ∀ z, 0 ≤ f z) (h : ∀ z ∈ K, f z ≤ C) : 0 ≤ ∫ z, f z ∂μ ∧ ∫ z, f z ∂μ ≤ C := by
  refine ⟨integral_nonneg hf, ?_⟩
  have := norm_integral_le_of_norm_le_const (μ := μ) (f := f) (C := C) (hK.mono fun z hz => by
    rw [Real.norm_of_nonneg (hf z)]
    exact h z hz)
  rw [Real.norm_of_nonneg (integral_nonneg hf)] at this
  simpa using this

/-- The bias of the covariance. -/
theorem bias_le {D A C M x : ℝ} (hx : 1 ≤ x) (hA : 0 ≤ A ∧ A ≤ D) (hC : 0 ≤ C ∧ C ≤ D) (hM : 0 ≤ M ∧ M ≤ D) :
    |(x - 1) / x ^ 3 * (((x - 1) ^ 2 + 1) * A + (x - 2) * (x - 3) * M - 2 * (x - 2) ^ 2 * C) - (A + M - 2 * C)|
      ≤ 10 * D / x := by
  have x0 : 0 < x := by linarith
  obtain ⟨A0, AD⟩ := hA
  obtain ⟨C0, CD⟩ := hC
  obtain ⟨M0, MD⟩ := hM
  have e : (x - 1) / x ^ 3 * (((x - 1) ^ 2 + 1) * A + (x - 2) * (x - 3) * M - 2 * (x - 2) ^ 2 * C) - (A + M - 2 * C)
      = (2 * (5 * x ^ 2 - 8 * x + 4) * C - (3 * x ^ 2 - 4 * x + 2) * A - (6 * x ^ 2 - 11 * x + 6) * M) / x ^ 3 := by
    field_simp
    ring
  have q1 : 0 ≤ 5 * x ^ 2 - 8 * x + 4 := by nlinarith [sq_nonneg (5 * x - 4)]
  have q2 : 0 ≤ 3 * x ^ 2 - 4 * x + 2 := by nlinarith [sq_nonneg (3 * x - 2)]
  have q3 : 0 ≤ 6 * x ^ 2 - 11 * x + 6 := by nlinarith [sq_nonneg (12 * x - 11)]
  have r1 := mul_le_mul_of_nonneg_left CD q1
  have r1' := mul_nonneg q1 C0
  have r2 := mul_le_mul_of_nonneg_left AD q2
  have r2' := mul_nonneg q2 A0
  have r3 := mul_le_mul_of_nonneg_left MD q3
  have r3' := mul_nonneg q3 M0
  have D0 : 0 ≤ D := A0.trans AD
  have s1 : (5 * x ^ 2 - 8 * x + 4) * D ≤ 5 * x ^ 2 * D := mul_le_mul_of_nonneg_right (by linarith) D0
  have s2 : (3 * x ^ 2 - 4 * x + 2) * D ≤ 3 * x ^ 2 * D := mul_le_mul_of_nonneg_right (by linarith) D0
  have s3 : (6 * x ^ 2 - 11 * x + 6) * D ≤ 6 * x ^ 2 * D := mul_le_mul_of_nonneg_right (by linarith) D0
  have t : 0 ≤ x ^ 2 * D := by positivity
  rw [e, abs_div, abs_of_pos (by positivity : 0 < x ^ 3), div_le_div_iff₀ (by positivity) x0,
    show 10 * D * x ^ 3 = 10 * (x ^ 2 * D) * x by ring]
  refine mul_le_mul_of_nonneg_right ?_ x0.le
  rw [abs_le]
  constructor <;> linarith

theorem bounded_zero {S : Type*} (hα : 0 < α) {K : Set S} {f : S → Fin p → ℝ} {A : ℝ}
    (hA : ∀ z ∈ K, ∀ z' ∈ K, Spec.dist α (f z) (f z') ≤ A) : ∃ C, ∀ z ∈ K, Spec.dist α (f z) 0 ≤ C := by
  by_cases hK : K.Nonempty
  · obtain ⟨z₀, h₀⟩ := hK
    have hA0 : 0 ≤ A := (Spec.dist_nonneg _ _ _).trans (hA _ h₀ _ h₀)
    refine ⟨(A ^ α⁻¹ + ‖Consistency.vec (f z₀)‖) ^ α, fun z hz => ?_⟩
    have h := hA z hz z₀ h₀
    rw [Consistency.dist_eq] at h
    rw [Consistency.dist_zero]
    refine Real.rpow_le_rpow (norm_nonneg _) ?_ hα.le
    have h' : ‖Consistency.vec (f z) - Consistency.vec (f z₀)‖ ≤ A ^ α⁻¹ := by
      rw [Real.le_rpow_inv_iff_of_pos (norm_nonneg _) hA0 hα]
      exact h
    have := norm_sub_norm_le (Consistency.vec (f z)) (Consistency.vec (f z₀))
    linarith
  · exact ⟨0, fun z hz => absurd ⟨z, hz⟩ hK⟩

theorem dist_zero_measurable {S : Type*} [MeasurableSpace S] (hα : 0 < α) {f : S → Fin p → ℝ} (hf : Measurable f) :
    Measurable fun z => Spec.dist α (f z) 0 := by
  have c : Continuous fun x : Fin p → ℝ => Spec.dist α x 0 := by
    simp only [Consistency.dist_zero]
    exact Consistency.vec_continuous.norm.rpow_const fun _ => Or.inr hα.le
  exact c.measurable.comp hf

theorem bounded_moments (hα : 0 < α) {μ : Measure ((Fin p → ℝ) × (Fin q → ℝ))} [IsProbabilityMeasure μ]
    {K : Set ((Fin p → ℝ) × (Fin q → ℝ))} (hK : ∀ᵐ z ∂μ, z ∈ K) {A B : ℝ}
    (hA : ∀ z ∈ K, ∀ z' ∈ K, Spec.dist α z.1 z'.1 ≤ A) (hB : ∀ z ∈ K, ∀ z' ∈ K, Spec.dist α z.2 z'.2 ≤ B) :
    Spec.Moments α μ := by
  obtain ⟨C, hC⟩ := bounded_zero (f := Prod.fst) hα hA
  obtain ⟨E, hE⟩ := bounded_zero (f := Prod.snd) hα hB
  have m1 := dist_zero_measurable hα (measurable_fst (α := Fin p → ℝ) (β := Fin q → ℝ))
  have m2 := dist_zero_measurable hα (measurable_snd (α := Fin p → ℝ) (β := Fin q → ℝ))
  refine ⟨Integrable.of_bound m1.aestronglyMeasurable C (hK.mono fun z hz => ?_),
    Integrable.of_bound m2.aestronglyMeasurable E (hK.mono fun z hz => ?_),
    Integrable.of_bound (m1.mul m2).aestronglyMeasurable (C * E) (hK.mono fun z hz => ?_)⟩
  · rw [Real.norm_of_nonneg (Spec.dist_nonneg _ _ _)]
    exact hC z hz
  · rw [Real.norm_of_nonneg (Spec.dist_nonneg _ _ _)]
    exact hE z hz
  · rw [Real.norm_of_nonneg (mul_nonneg (Spec.dist_nonneg _ _ _) (Spec.dist_nonneg _ _ _))]
    exact mul_le_mul (hC z hz) (hE z hz) (Spec.dist_nonneg _ _ _) ((Spec.dist_nonneg _ _ _).trans (hC z hz))

theorem bounded_moment (hα : 0 < α) {μ : Measure (Fin p → ℝ)} [IsProbabilityMeasure μ] {K : Set (Fin p → ℝ)}
    (hK : ∀ᵐ z ∂μ, z ∈ K) {D : ℝ} (hD : ∀ z ∈ K, ∀ z' ∈ K, Spec.dist α z z' ≤ D) :
    Integrable (fun x => Spec.dist α x 0) μ := by
  obtain ⟨C, hC⟩ := bounded_zero (f := id) hα hD
  refine Integrable.of_bound (dist_zero_measurable hα measurable_id).aestronglyMeasurable C (hK.mono fun z hz => ?_)
  rw [Real.norm_of_nonneg (Spec.dist_nonneg _ _ _)]
  exact hC z hz

end Dcor.Concentration

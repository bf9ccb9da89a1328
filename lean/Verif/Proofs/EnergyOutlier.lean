/-
Energy distances of samples in which one observation goes to infinity, or is replaced by another one.
-/
import Verif.Proofs.Outlier
import Verif.Proofs.Stability
import Verif.Spec.EnergyTest

namespace Dcor.Spec

open Finset Filter Topology

variable {n m p k : ℕ} {sz : Fin k → ℕ} {α : ℝ}

/-- The part of the observations of a sample that are at `u`, if the others are at zero. -/
noncomputable def share (δ : Fin n → ℝ) : ℝ := (∑ i, δ i) / n

theorem dist_zero_one (hα : α ≠ 0) (u : Fin p → ℝ) {a b : ℝ} (ha : a = 0 ∨ a = 1) (hb : b = 0 ∨ b = 1) :
    dist α (fun c => a * u c) (fun c => b * u c) = dist α u 0 * (a + b - 2 * a * b) := by
  have e0 : (fun c => (0 : ℝ) * u c) = 0 := by funext c; simp
  have e1 : (fun c => (1 : ℝ) * u c) = u := by funext c; simp
  rcases ha with rfl | rfl <;> rcases hb with rfl | rfl
  · rw [e0, dist_self hα]; ring
  · rw [e0, e1, dist_symm]; ring
  · rw [e0, e1]; ring
  · rw [e1, dist_self hα]; ring

theorem crossMean_zero_one (hα : α ≠ 0) (hn : 0 < n) (hm : 0 < m) (u : Fin p → ℝ) {δ : Fin n → ℝ} {ε : Fin m → ℝ}
    (hδ : ∀ i, δ i = 0 ∨ δ i = 1) (hε : ∀ i, ε i = 0 ∨ ε i = 1) :
    crossMean α (fun i c => δ i * u c) (fun j c => ε j * u c)
      = dist α u 0 * (share δ + share ε - 2 * share δ * share ε) := by
  have hn' : (n : ℝ) ≠ 0 := by positivity
  have hm' : (m : ℝ) ≠ 0 := by positivity
  have e : ∑ i, ∑ j, dist α (fun c => δ i * u c) (fun c => ε j * u c)
      = dist α u 0 * (m * (∑ i, δ i) + n * (∑ j, ε j) - 2 * (∑ i, δ i) * ∑ j, ε j) := by
    have : ∀ i, ∑ j, dist α (fun c => δ i * u c) (fun c => ε j * u c)
        = dist α u 0 * (m * δ i + (∑ j, ε j) - 2 * δ i * ∑ j, ε j) := by
      intro i
      rw [sum_congr rfl fun j _ => dist_zero_one hα u (hδ i) (hε j), ← mul_sum, sum_sub_distrib, sum_add_distrib, ← mul_sum]
      simp
    rw [sum_congr rfl fun i _ => this i, ← mul_sum, sum_sub_distrib, sum_add_distrib, ← mul_sum, ← sum_mul, ← mul_sum]
    simp
  rw [crossMean, e, share, share]
  field_simp

theorem energyV_zero_one (hα : α ≠ 0) (hn : 0 < n) (hm : 0 < m) (u : Fin p → ℝ) {δ : Fin n → ℝ} {ε : Fin m → ℝ}
    (hδ : ∀ i, δ i = 0 ∨ δ i = 1) (hε : ∀ i, ε i = 0 ∨ ε i = 1) :
    energyV α (fun i c => δ i * u c) (fun j c => ε j * u c) = 2 * dist α u 0 * (share δ - share ε) ^ 2 := by
  rw [energyV, crossMean_zero_one hα hn hm u hδ hε, crossMean_zero_one hα hn hn u hδ hδ,
    crossMean_zero_one hα hm hm u hε hε]
  ring

theorem continuous_crossMean (hα : 0 ≤ α) {ι : Type} (f : Fin n → ι) (g : Fin m → ι) :
    Continuous fun W : ι → Fin p → ℝ => crossMean α (fun i => W (f i)) fun j => W (g j) := by
  unfold crossMean
  refine Continuous.div_const (continuous_finsetSum _ fun i _ => continuous_finsetSum _ fun j _ => ?_) _
  exact (Charac.dist_continuous hα).comp (by fun_prop : Continuous fun W : ι → Fin p → ℝ => (W (f i), W (g j)))

theorem continuous_energyV (hα : 0 ≤ α) {ι : Type} (f : Fin n → ι) (g : Fin m → ι) :
    Continuous fun W : ι → Fin p → ℝ => energyV α (fun i => W (f i)) fun j => W (g j) := by
  unfold energyV
  exact ((continuous_const.mul (continuous_crossMean hα f g)).sub (continuous_crossMean hα f f)).sub
    (continuous_crossMean hα g g)

theorem dist_scale {t : ℝ} (ht : 0 < t) (u v : Fin p → ℝ) :
    dist α u v = t ^ α * dist α (fun c => t⁻¹ * u c) (fun c => t⁻¹ * v c) := by
  have e : ∑ c, (t⁻¹ * u c - t⁻¹ * v c) ^ 2 = (t⁻¹) ^ 2 * ∑ c, (u c - v c) ^ 2 := by
    rw [mul_sum]; exact sum_congr rfl fun c _ => by ring
  rw [dist, dist, e, Real.sqrt_mul (sq_nonneg _), Real.sqrt_sq (inv_nonneg.2 ht.le), Real.mul_rpow (inv_nonneg.2 ht.le)
    (Real.sqrt_nonneg _), ← mul_assoc, ← Real.mul_rpow ht.le (inv_nonneg.2 ht.le), mul_inv_cancel₀ ht.ne', Real.one_rpow,
    one_mul]

theorem crossMean_scale {t : ℝ} (ht : 0 < t) (X : Fin n → Fin p → ℝ) (Y : Fin m → Fin p → ℝ) :
    crossMean α X Y = t ^ α * crossMean α (fun i c => t⁻¹ * X i c) fun j c => t⁻¹ * Y j c := by
  rw [crossMean, crossMean, mul_div_assoc', mul_sum]
  simp only [mul_sum]
  congr 1
  exact sum_congr rfl fun i _ => sum_congr rfl fun j _ => dist_scale ht _ _

theorem energyV_scale {t : ℝ} (ht : 0 < t) (X : Fin n → Fin p → ℝ) (Y : Fin m → Fin p → ℝ) :
    energyV α X Y = t ^ α * energyV α (fun i c => t⁻¹ * X i c) fun j c => t⁻¹ * Y j c := by
  rw [energyV, energyV, crossMean_scale ht X Y, crossMean_scale ht X X, crossMean_scale ht Y Y]
  ring

/-- The sum over the pairs of samples, over ordered pairs. -/
theorem sum_pairs_symm (f : Fin k → Fin k → ℝ) (hs : ∀ a b, f a b = f b a) (h0 : ∀ a, f a a = 0) :
    2 * ∑ a, ∑ b ∈ univ.filter (a < ·), f a b = ∑ a, ∑ b, f a b := by
  have h1 : ∑ a, ∑ b ∈ univ.filter (a < ·), f a b = ∑ a, ∑ b, if a < b then f a b else 0 :=
    sum_congr rfl fun a _ => sum_filter _ _
  have h2 : ∑ a, ∑ b ∈ univ.filter (a < ·), f a b = ∑ a, ∑ b, if b < a then f a b else 0 := by
    rw [h1, sum_comm]
    exact sum_congr rfl fun a _ => sum_congr rfl fun b _ => by rw [hs]
  rw [two_mul]
  nth_rw 1 [h1]
  rw [h2, ← sum_add_distrib]
  refine sum_congr rfl fun a _ => ?_
  rw [← sum_add_distrib]
  refine sum_congr rfl fun b _ => ?_
  rcases lt_trichotomy a b with h | rfl | h
  · simp [h, h.le]
  · simp [h0]
  · simp [h, h.le]

/-- The value for an outlier in the sample `g`, up to a factor. -/
noncomputable def outlierWeight (sz : Fin k → ℕ) (g : Fin k) : ℝ :=
  ∑ b ∈ univ.erase g, (sz b : ℝ) / (sz g * (sz g + sz b))

theorem energyTestVal_zero_one (hα : α ≠ 0) (hsz : ∀ a, 0 < sz a) (u : Fin p → ℝ) (δ : (a : Fin k) → Fin (sz a) → ℝ)
    (hδ : ∀ a i, δ a i = 0 ∨ δ a i = 1) (g : Fin k) (hg : ∀ a, ∑ i, δ a i = if a = g then 1 else 0) :
    energyTestVal .v α (fun a i c => δ a i * u c) = 2 * dist α u 0 * outlierWeight sz g := by
  have hpos : ∀ a, (0 : ℝ) < sz a := fun a => by exact_mod_cast hsz a
  have hs : ∀ a, share (δ a) = if a = g then 1 / (sz a : ℝ) else 0 := fun a => by
    rw [share, hg]; split_ifs <;> simp
  set f : Fin k → Fin k → ℝ := fun a b =>
    (sz a : ℝ) * sz b / (sz a + sz b) * (2 * dist α u 0 * (share (δ a) - share (δ b)) ^ 2) with hf
  have e : energyTestVal .v α (fun a i c => δ a i * u c) = ∑ a, ∑ b ∈ univ.filter (a < ·), f a b := by
    unfold energyTestVal
    refine sum_congr rfl fun a _ => sum_congr rfl fun b _ => ?_
    rw [hf, energyVal, energyV_zero_one hα (hsz a) (hsz b) u (hδ a) (hδ b)]
  have key := sum_pairs_symm f (fun a b => by
    have h1 : (sz a : ℝ) + sz b ≠ 0 := (add_pos (hpos a) (hpos b)).ne'
    simp only [hf]
    rw [add_comm (sz b : ℝ)]
    ring) (fun a => by simp [hf])
  have hrow : ∀ a, ∑ b, f a b = (if a = g then 2 * dist α u 0 * outlierWeight sz g else 0) + if a = g then 0 else f a g := by
    intro a
    by_cases ha : a = g
    · subst ha
      rw [if_pos rfl, if_pos rfl, add_zero, ← add_sum_erase univ _ (mem_univ a), outlierWeight, mul_sum]
      have : f a a = 0 := by simp [hf]
      rw [this, zero_add]
      refine sum_congr rfl fun b hb => ?_
      have h1 : (sz a : ℝ) + sz b ≠ 0 := (add_pos (hpos a) (hpos b)).ne'
      have h2 := (hpos a).ne'
      simp only [hf]
      rw [hs, hs, if_pos rfl, if_neg (ne_of_mem_erase hb)]
      field_simp
      ring
    · rw [if_neg ha, if_neg ha, zero_add]
      refine sum_eq_single g (fun b _ hb => ?_) fun h => absurd (mem_univ g) h
      simp only [hf]
      rw [hs, hs, if_neg ha, if_neg hb]
      ring
  have hcol : ∑ a, (if a = g then 0 else f a g) = 2 * dist α u 0 * outlierWeight sz g := by
    rw [← add_sum_erase univ _ (mem_univ g), if_pos rfl, zero_add, outlierWeight, mul_sum]
    refine sum_congr rfl fun b hb => ?_
    have h1 : (sz g : ℝ) + sz b ≠ 0 := (add_pos (hpos g) (hpos b)).ne'
    have h2 := (hpos g).ne'
    have h3 := ne_of_mem_erase hb
    rw [if_neg h3]
    simp only [hf]
    rw [hs, hs, if_pos rfl, if_neg h3, add_comm (sz b : ℝ)]
    field_simp
    ring
  rw [sum_congr rfl fun a _ => hrow a, sum_add_distrib, hcol, sum_ite_eq' univ g, if_pos (mem_univ g)] at key
  rw [e]
  linarith

theorem outlierWeight_lt (hsz : ∀ a, 0 < sz a) {g h : Fin k} (hlt : sz g < sz h) : outlierWeight sz h < outlierWeight sz g := by
  have hpos : ∀ a, (0 : ℝ) < sz a := fun a => by exact_mod_cast hsz a
  have hlt' : (sz g : ℝ) < sz h := by exact_mod_cast hlt
  have hne : g ≠ h := fun e => by subst e; exact lt_irrefl _ hlt
  unfold outlierWeight
  rw [← add_sum_erase (univ.erase h) _ (mem_erase.2 ⟨hne, mem_univ g⟩),
    ← add_sum_erase (univ.erase g) _ (mem_erase.2 ⟨hne.symm, mem_univ h⟩), erase_right_comm]
  refine add_lt_add_of_lt_of_le ?_ (sum_le_sum fun b _ => ?_)
  · have h1 := hpos g
    have h2 := hpos h
    rw [add_comm (sz h : ℝ)]
    rw [div_lt_div_iff₀ (by positivity) (by positivity)]
    have : (sz g : ℝ) * sz g < sz h * sz h := by nlinarith
    have h3 : (0 : ℝ) < sz g + sz h := by positivity
    nlinarith
  · have h1 := hpos g
    have h2 := hpos h
    have h3 := hpos b
    gcongr

/-- The samples with the observation `i` of the sample `g` moved by `t u`. -/
def movedIn (X : (a : Fin k) → Fin (sz a) → Fin p → ℝ) (g : Fin k) (i : Fin (sz g)) (u : Fin p → ℝ) (t : ℝ) :
    (a : Fin k) → Fin (sz a) → Fin p → ℝ :=
  fun a j c => if (⟨a, j⟩ : Σ a, Fin (sz a)) = ⟨g, i⟩ then X a j c + t * u c else X a j c

theorem pooled_movedIn (X : (a : Fin k) → Fin (sz a) → Fin p → ℝ) (g : Fin k) (i : Fin (sz g)) (u : Fin p → ℝ) (t : ℝ) :
    pooled (movedIn X g i u t) = moved (pooled X) (finSigmaFinEquiv ⟨g, i⟩) u t := by
  funext l c
  simp only [pooled, movedIn, moved, Sigma.eta, Equiv.symm_apply_eq]

theorem continuous_energyTestVal (hα : 0 ≤ α) {ι : Type} (f : (a : Fin k) → Fin (sz a) → ι) :
    Continuous fun W : ι → Fin p → ℝ => energyTestVal .v α fun a i => W (f a i) := by
  unfold energyTestVal energyVal
  exact continuous_finsetSum _ fun a _ => continuous_finsetSum _ fun b _ =>
    continuous_const.mul (continuous_energyV hα (f a) (f b))

theorem energyTestVal_scale {t : ℝ} (ht : 0 < t) (X : (a : Fin k) → Fin (sz a) → Fin p → ℝ) :
    energyTestVal .v α X = t ^ α * energyTestVal .v α fun a i c => t⁻¹ * X a i c := by
  rw [energyTestVal, energyTestVal, mul_sum]
  refine sum_congr rfl fun a _ => ?_
  rw [mul_sum]
  refine sum_congr rfl fun b _ => ?_
  rw [energyVal, energyVal, energyV_scale ht]
  ring

/-- The sample an observation belongs to after a permutation. -/
def sampleOf (sz : Fin k → ℕ) (π : Equiv.Perm (Fin (∑ a, sz a))) (g : Fin k) (i : Fin (sz g)) : Fin k :=
  (finSigmaFinEquiv.symm (π.symm (finSigmaFinEquiv ⟨g, i⟩))).1

theorem sampleOf_one (g : Fin k) (i : Fin (sz g)) : sampleOf sz 1 g i = g := by
  show (finSigmaFinEquiv.symm (finSigmaFinEquiv ⟨g, i⟩)).1 = g
  rw [Equiv.symm_apply_apply]

/-- The statistic of permuted samples with an outlier, up to the power of its distance. -/
theorem energyTestVal_tendsto (hα : 0 < α) (hsz : ∀ a, 0 < sz a) (X : (a : Fin k) → Fin (sz a) → Fin p → ℝ) (g : Fin k)
    (i : Fin (sz g)) (u : Fin p → ℝ) (π : Equiv.Perm (Fin (∑ a, sz a))) :
    Tendsto (fun t => energyTestVal .v α fun a j c => t⁻¹ * relabel (movedIn X g i u t) π a j c) atTop
      (𝓝 (2 * dist α u 0 * outlierWeight sz (sampleOf sz π g i))) := by
  have h := ((continuous_energyTestVal (p := p) hα.le fun a j => π (finSigmaFinEquiv ⟨a, j⟩)).tendsto _).comp
    (moved_tendsto (pooled X) (finSigmaFinEquiv ⟨g, i⟩) u)
  have e : energyTestVal .v α (fun a (j : Fin (sz a)) => spike (finSigmaFinEquiv ⟨g, i⟩) u (π (finSigmaFinEquiv ⟨a, j⟩)))
      = 2 * dist α u 0 * outlierWeight sz (sampleOf sz π g i) := by
    have e' : (fun a (j : Fin (sz a)) => spike (finSigmaFinEquiv ⟨g, i⟩) u (π (finSigmaFinEquiv ⟨a, j⟩)))
        = fun a j c => (if (⟨a, j⟩ : Σ a, Fin (sz a)) = finSigmaFinEquiv.symm (π.symm (finSigmaFinEquiv ⟨g, i⟩)) then 1 else 0)
          * u c := by
      funext a j c
      simp only [spike, ite_mul, one_mul, zero_mul, Equiv.eq_symm_apply]
    rw [e']
    refine energyTestVal_zero_one hα.ne' hsz u (fun a (j : Fin (sz a)) =>
      if (⟨a, j⟩ : Σ a, Fin (sz a)) = finSigmaFinEquiv.symm (π.symm (finSigmaFinEquiv ⟨g, i⟩)) then 1 else 0) ?_ _ ?_
    · intro a j; split_ifs <;> simp
    · intro a
      unfold sampleOf
      generalize finSigmaFinEquiv.symm (π.symm (finSigmaFinEquiv ⟨g, i⟩)) = r
      obtain ⟨b, l⟩ := r
      by_cases hab : a = b
      · subst hab
        simp
      · rw [if_neg hab]
        refine sum_eq_zero fun j _ => if_neg fun h => hab ?_
        exact congrArg Sigma.fst h
  rw [e] at h
  refine h.congr fun t => ?_
  simp only [Function.comp_apply, relabel, pooled_movedIn]

/-- With the U-statistic, replacing one observation changes little. -/
theorem energyU_replace (h0 : 0 < α) (h1 : α ≤ 1) (hn : 2 ≤ n) (hm : 0 < m) (X : Fin n → Fin p → ℝ) (Y : Fin m → Fin p → ℝ)
    (i : Fin n) (z : Fin p → ℝ) {D : ℝ} (hD : ∀ k, k ≠ i → ∀ j, dist α (X k) (Y j) ≤ D) :
    |energyU α (Function.update X i z) Y - energyU α X Y| ≤ 4 * D / n := by
  classical
  have hn2 : (2 : ℝ) ≤ n := by exact_mod_cast hn
  have hn0 : (n : ℝ) ≠ 0 := by linarith
  have hn1 : (0 : ℝ) < n - 1 := by linarith
  have hm0 : (0 : ℝ) < m := by exact_mod_cast hm
  -- the part of the statistic in which the observation occurs
  set P : (Fin p → ℝ) → ℝ := fun w => 2 * (∑ j, dist α w (Y j)) / (n * m)
    - 2 * (∑ k ∈ univ.erase i, dist α w (X k)) / (n * (n - 1)) with hP
  have hPb : ∀ w, |P w| ≤ 2 * D / n := by
    intro w
    have e : P w = 2 / (n * m * (n - 1)) * ∑ j, ∑ k ∈ univ.erase i, (dist α w (Y j) - dist α w (X k)) := by
      have hc : ((univ.erase i).card : ℝ) = n - 1 := by
        rw [card_erase_of_mem (mem_univ i), card_univ, Fintype.card_fin, Nat.cast_sub (by omega), Nat.cast_one]
      simp only [sum_sub_distrib, sum_const, nsmul_eq_mul, hc, card_univ, Fintype.card_fin]
      rw [← mul_sum, hP]
      field_simp
    have hb : |∑ j, ∑ k ∈ univ.erase i, (dist α w (Y j) - dist α w (X k))| ≤ m * ((n - 1) * D) := by
      have hc : ((univ.erase i).card : ℝ) = n - 1 := by
        rw [card_erase_of_mem (mem_univ i), card_univ, Fintype.card_fin, Nat.cast_sub (by omega), Nat.cast_one]
      have hr : ∀ j, |∑ k ∈ univ.erase i, (dist α w (Y j) - dist α w (X k))| ≤ (n - 1) * D := by
        intro j
        refine (abs_sum_le_sum_abs _ _).trans ?_
        rw [← hc, ← nsmul_eq_mul]
        refine sum_le_card_nsmul _ _ _ fun k hk => ?_
        have hk' := hD k (ne_of_mem_erase hk) j
        rw [abs_le]
        have t1 := dist_triangle_rpow h0.le h1 w (Y j) (X k)
        have t2 := dist_triangle_rpow h0.le h1 w (X k) (Y j)
        rw [dist_symm _ (Y j)] at t1
        constructor <;> linarith
      refine (abs_sum_le_sum_abs _ _).trans ((sum_le_sum fun j _ => hr j).trans_eq ?_)
      simp
    rw [e, abs_mul, abs_of_nonneg (by positivity)]
    calc 2 / (n * m * (n - 1)) * |∑ j, ∑ k ∈ univ.erase i, (dist α w (Y j) - dist α w (X k))|
        ≤ 2 / (n * m * (n - 1)) * (m * ((n - 1) * D)) := by gcongr
      _ = 2 * D / n := by field_simp
  have hsplit : ∀ w, energyU α (Function.update X i w) Y = P w
      + (2 * (∑ k ∈ univ.erase i, ∑ j, dist α (X k) (Y j)) / (n * m)
        - (∑ k ∈ univ.erase i, ∑ l ∈ (univ.erase i).filter (· ≠ k), dist α (X k) (X l)) / (n * (n - 1)) - pairMean α Y) := by
    intro w
    have c : ∑ k, ∑ j, dist α (Function.update X i w k) (Y j)
        = ∑ j, dist α w (Y j) + ∑ k ∈ univ.erase i, ∑ j, dist α (X k) (Y j) := by
      rw [← add_sum_erase univ _ (mem_univ i), Function.update_self]
      congr 1
      exact sum_congr rfl fun k hk => by rw [Function.update_of_ne (ne_of_mem_erase hk)]
    have d : ∑ k, ∑ l ∈ univ.filter (· ≠ k), dist α (Function.update X i w k) (Function.update X i w l)
        = 2 * (∑ k ∈ univ.erase i, dist α w (X k))
          + ∑ k ∈ univ.erase i, ∑ l ∈ (univ.erase i).filter (· ≠ k), dist α (X k) (X l) := by
      rw [← add_sum_erase univ _ (mem_univ i)]
      have r1 : ∑ l ∈ univ.filter (· ≠ i), dist α (Function.update X i w i) (Function.update X i w l)
          = ∑ k ∈ univ.erase i, dist α w (X k) := by
        rw [filter_ne']
        exact sum_congr rfl fun k hk => by rw [Function.update_self, Function.update_of_ne (ne_of_mem_erase hk)]
      have r2 : ∀ k ∈ univ.erase i, ∑ l ∈ univ.filter (· ≠ k), dist α (Function.update X i w k) (Function.update X i w l)
          = dist α w (X k) + ∑ l ∈ (univ.erase i).filter (· ≠ k), dist α (X k) (X l) := by
        intro k hk
        have hki := ne_of_mem_erase hk
        rw [← add_sum_erase (univ.filter (· ≠ k)) _ (mem_filter.2 ⟨mem_univ i, hki.symm⟩), Function.update_self,
          Function.update_of_ne hki, dist_symm]
        congr 1
        rw [filter_ne', filter_ne', erase_right_comm]
        refine sum_congr rfl fun l hl => ?_
        rw [Function.update_of_ne (ne_of_mem_erase (mem_of_mem_erase hl))]
      rw [r1, sum_congr rfl r2, sum_add_distrib]
      ring
    rw [energyU, crossMean, pairMean, c, d, hP]
    ring
  have hx : energyU α X Y = energyU α (Function.update X i (X i)) Y := by rw [Function.update_eq_self]
  rw [hx, hsplit, hsplit, add_sub_add_right_eq_sub]
  have a1 := abs_le.1 (hPb z)
  have a2 := abs_le.1 (hPb (X i))
  have : 4 * D / n = 2 * D / n + 2 * D / n := by ring
  rw [abs_le]
  constructor <;> linarith

end Dcor.Spec

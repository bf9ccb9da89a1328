/-
The statistic of the energy test of growing samples.
-/
import Verif.Proofs.ConsistencyDcov
import Verif.Proofs.Homogeneity
import Verif.Proofs.Power

namespace Dcor

open MeasureTheory Filter Topology Finset

namespace Consistency

variable {k p : ℕ} {α : ℝ}

/-- The mean distance in the pooled sample is at most twice the sum of the mean distances of all pairs of samples. -/
theorem pairMean_pooled_le (hα : α ≠ 0) {sz : Fin k → ℕ} (hsz : ∀ a, 0 < sz a) (hN : 2 ≤ ∑ a, sz a)
    (W : (a : Fin k) → Fin (sz a) → Fin p → ℝ) :
    Spec.pairMean α (Spec.pooled W) ≤ 2 * ∑ a, ∑ b, Spec.crossMean α (W a) (W b) := by
  have hN' : (2 : ℝ) ≤ ((∑ a, sz a : ℕ) : ℝ) := by exact_mod_cast hN
  have h0 : 0 ≤ Spec.crossMean α (Spec.pooled W) (Spec.pooled W) :=
    div_nonneg (sum_nonneg fun _ _ => sum_nonneg fun _ _ => dist_nonneg _ _) (by positivity)
  rw [pairMean_eq hα (by omega)]
  have h1 : ((∑ a, sz a : ℕ) : ℝ) / (((∑ a, sz a : ℕ) : ℝ) - 1) ≤ 2 := by
    rw [div_le_iff₀ (by linarith)]
    linarith
  rw [mul_comm]
  refine mul_le_mul h1 ?_ h0 (by norm_num)
  have h2 : Spec.crossMean α (Spec.pooled W) (Spec.pooled W)
      = ∑ a, ∑ b, (∑ i, ∑ j, Spec.dist α (W a i) (W b j)) / (((∑ a, sz a : ℕ) : ℝ) * ((∑ a, sz a : ℕ) : ℝ)) := by
    rw [Spec.crossMean, ← finSigmaFinEquiv.sum_comp, Fintype.sum_sigma, sum_div]
    refine sum_congr rfl fun a _ => ?_
    rw [← sum_div, sum_comm]
    congr 1
    have h3 : ∀ i : Fin (sz a), ∑ j, Spec.dist α (Spec.pooled W (finSigmaFinEquiv ⟨a, i⟩)) (Spec.pooled W j)
        = ∑ b, ∑ j, Spec.dist α (W a i) (W b j) := by
      intro i
      rw [← finSigmaFinEquiv.sum_comp, Fintype.sum_sigma]
      exact sum_congr rfl fun b _ => sum_congr rfl fun j _ => by rw [Spec.pooled_apply, Spec.pooled_apply]
    rw [sum_comm]
    simp only [h3]
    rw [sum_comm]
  rw [h2]
  refine sum_le_sum fun a _ => sum_le_sum fun b _ => ?_
  have ha := hsz a
  have hb := hsz b
  refine div_le_div_of_nonneg_left (sum_nonneg fun _ _ => sum_nonneg fun _ _ => dist_nonneg _ _) (by positivity) ?_
  have la : sz a ≤ ∑ a, sz a := single_le_sum (f := sz) (fun _ _ => Nat.zero_le _) (mem_univ a)
  have lb : sz b ≤ ∑ a, sz a := single_le_sum (f := sz) (fun _ _ => Nat.zero_le _) (mem_univ b)
  exact_mod_cast Nat.mul_le_mul la lb

theorem pairMean_nonneg {n : ℕ} (x : Fin n → Fin p → ℝ) : 0 ≤ Spec.pairMean α x := by
  rcases Nat.eq_zero_or_pos n with rfl | hn
  · simp [Spec.pairMean]
  have : (1 : ℝ) ≤ n := by exact_mod_cast hn
  exact div_nonneg (sum_nonneg fun _ _ => sum_nonneg fun _ _ => dist_nonneg _ _)
    (mul_nonneg (by linarith) (by linarith))

/-- The factor of the energy distance in the statistic tends to infinity with both sizes. -/
theorem factor_tendsto {s t : ℕ → ℕ} (hs : Tendsto s atTop atTop) (ht : Tendsto t atTop atTop) :
    Tendsto (fun n => (s n : ℝ) * t n / (s n + t n)) atTop atTop := by
  have hs' : Tendsto (fun n => (s n : ℝ)) atTop atTop := tendsto_natCast_atTop_atTop.comp hs
  have ht' : Tendsto (fun n => (t n : ℝ)) atTop atTop := tendsto_natCast_atTop_atTop.comp ht
  refine tendsto_atTop.2 fun C => ?_
  filter_upwards [hs'.eventually_ge_atTop (2 * C), ht'.eventually_ge_atTop (2 * C), hs'.eventually_gt_atTop 0,
    ht'.eventually_gt_atTop 0] with n h1 h2 h3 h4
  rw [le_div_iff₀ (by linarith)]
  nlinarith

/-- The statistic of the energy test is at least the term of two of the samples. -/
theorem energyTestVal_ge (hα : 0 ≤ α) (hα2 : α ≤ 2) {sz : Fin k → ℕ} (hsz : ∀ a, 0 < sz a)
    (W : (a : Fin k) → Fin (sz a) → Fin p → ℝ) {a b : Fin k} (hab : a < b) :
    (sz a : ℝ) * sz b / (sz a + sz b) * Spec.energyV α (W a) (W b) ≤ Spec.energyTestVal .v α W := by
  have h0 : ∀ a b, 0 ≤ (sz a : ℝ) * sz b / (sz a + sz b) * Spec.energyVal .v α (W a) (W b) := fun a b =>
    mul_nonneg (by positivity) (Spec.energyV_nonneg (hsz a) (hsz b) _ _ hα hα2)
  rw [Spec.energyTestVal]
  refine le_trans ?_ (single_le_sum (f := fun a => ∑ b ∈ univ.filter (a < ·), (sz a : ℝ) * sz b / (sz a + sz b)
    * Spec.energyVal .v α (W a) (W b)) (fun a _ => sum_nonneg fun b _ => h0 a b) (mem_univ a))
  exact single_le_sum (f := fun b => (sz a : ℝ) * sz b / (sz a + sz b) * Spec.energyVal .v α (W a) (W b))
    (fun b _ => h0 a b) (mem_filter.2 ⟨mem_univ b, hab⟩)

/-- The first `n` elements of a sequence. -/
def first (z : ℕ → Fin p → ℝ) (n : ℕ) (i : Fin n) : Fin p → ℝ := z i

variable {z : Fin k → ℕ → Fin p → ℝ} {L : Fin k → Fin k → ℝ} {sz : ℕ → Fin k → ℕ}

theorem cross_tendsto (hsz : ∀ a, Tendsto (fun n => sz n a) atTop atTop)
    (hL : ∀ a b, Tendsto (fun n : ℕ × ℕ => Spec.crossMean α (first (z a) n.1) (first (z b) n.2)) (atTop ×ˢ atTop)
      (𝓝 (L a b))) (a b : Fin k) :
    Tendsto (fun n => Spec.crossMean α (first (z a) (sz n a)) (first (z b) (sz n b))) atTop (𝓝 (L a b)) := by
  have h1 : Tendsto (fun n => (sz n a, sz n b)) atTop (atTop ×ˢ atTop) := (hsz a).prodMk (hsz b)
  have h2 := (hL a b).comp h1
  simp only [Function.comp_def] at h2
  exact h2

theorem energyTest_tendsto (hα : 0 ≤ α) (hα2 : α ≤ 2) (hsz : ∀ a, Tendsto (fun n => sz n a) atTop atTop)
    (hL : ∀ a b, Tendsto (fun n : ℕ × ℕ => Spec.crossMean α (first (z a) n.1) (first (z b) n.2)) (atTop ×ˢ atTop)
      (𝓝 (L a b))) {a b : Fin k} (hpos : 0 < 2 * L a b - L a a - L b b) :
    Tendsto (fun n => Spec.energyTestVal .v α fun a => first (z a) (sz n a)) atTop atTop := by
  have hE : Tendsto (fun n => Spec.energyV α (first (z a) (sz n a)) (first (z b) (sz n b))) atTop
      (𝓝 (2 * L a b - L a a - L b b)) :=
    (((cross_tendsto hsz hL a b).const_mul 2).sub (cross_tendsto hsz hL a a)).sub (cross_tendsto hsz hL b b)
  have hab : a ≠ b := by
    rintro rfl
    linarith
  have hpos' : ∀ᶠ n in atTop, ∀ a, 0 < sz n a := eventually_all.2 fun a => (hsz a).eventually_gt_atTop 0
  obtain ⟨c, d, hcd, hE⟩ : ∃ c d, c < d ∧ Tendsto (fun n => Spec.energyV α (first (z c) (sz n c))
      (first (z d) (sz n d))) atTop (𝓝 (2 * L a b - L a a - L b b)) := by
    rcases lt_or_gt_of_ne hab with h | h
    · exact ⟨a, b, h, hE⟩
    · exact ⟨b, a, h, hE.congr fun n => Spec.energyV_comm _ _ _⟩
  refine tendsto_atTop_mono' _ ?_ ((factor_tendsto (hsz c) (hsz d)).atTop_mul_pos hpos hE)
  filter_upwards [hpos'] with n hn
  exact energyTestVal_ge hα hα2 hn (fun a => first (z a) (sz n a)) hcd

theorem energyTest_mean_tendsto (hα : 0 < α) (hα2 : α ≤ 2) (hsz : ∀ a, Tendsto (fun n => sz n a) atTop atTop)
    (hL : ∀ a b, Tendsto (fun n : ℕ × ℕ => Spec.crossMean α (first (z a) n.1) (first (z b) n.2)) (atTop ×ˢ atTop)
      (𝓝 (L a b))) {a b : Fin k} (hpos : 0 < 2 * L a b - L a a - L b b) :
    Tendsto (fun n => (k : ℝ) * (k - 1) / 2 * Spec.pairMean α (Spec.pooled fun a => first (z a) (sz n a))
      / Spec.energyTestVal .v α fun a => first (z a) (sz n a)) atTop (𝓝 0) := by
  have hT := energyTest_tendsto hα.le hα2 hsz hL hpos
  have hpos' : ∀ᶠ n in atTop, ∀ a, 0 < sz n a := eventually_all.2 fun a => (hsz a).eventually_gt_atTop 0
  have hM : Tendsto (fun n => (k : ℝ) * (k - 1) / 2 * (2 * ∑ a, ∑ b, Spec.crossMean α (first (z a) (sz n a))
      (first (z b) (sz n b)))) atTop (𝓝 ((k : ℝ) * (k - 1) / 2 * (2 * ∑ a, ∑ b, L a b))) :=
    (Tendsto.const_mul _ (tendsto_finsetSum _ fun a _ => tendsto_finsetSum _ fun b _ =>
      cross_tendsto hsz hL a b)).const_mul _
  have hk : (0 : ℝ) ≤ (k : ℝ) * (k - 1) / 2 := by
    have : (1 : ℝ) ≤ k := by
      have := a.pos
      exact_mod_cast this
    have : (0 : ℝ) ≤ (k : ℝ) * (k - 1) := mul_nonneg (by linarith) (by linarith)
    linarith
  have hN : ∀ᶠ n in atTop, 2 ≤ ∑ a, sz n a := by
    filter_upwards [(hsz a).eventually_ge_atTop 2] with n hn
    exact hn.trans (single_le_sum (f := sz n) (fun _ _ => Nat.zero_le _) (mem_univ a))
  refine tendsto_of_tendsto_of_tendsto_of_le_of_le' tendsto_const_nhds (hM.div_atTop hT) ?_ ?_
  · filter_upwards [hT.eventually_gt_atTop 0] with n h0
    exact div_nonneg (mul_nonneg hk (pairMean_nonneg _)) h0.le
  · filter_upwards [hT.eventually_gt_atTop 0, hpos', hN] with n h0 h1 h2
    exact div_le_div_of_nonneg_right (mul_le_mul_of_nonneg_left
      (pairMean_pooled_le hα.ne' h1 h2 fun a => first (z a) (sz n a)) hk) h0.le

end Consistency

end Dcor

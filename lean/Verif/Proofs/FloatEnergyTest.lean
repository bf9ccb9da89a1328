/-
Errors of the statistic of the energy test in `float64`.
-/
import Verif.Proofs.ErrorReal
import Verif.Proofs.FloatTests
import Verif.Proofs.RoundingEnergy
import Verif.Spec.EnergyTest

namespace Dcor

variable {sqrt : ℚ → ℚ} {sum : List ℚ → ℚ} {dot : List (ℚ × ℚ) → ℚ} {n m k p : ℕ} {size : Fin k → ℕ}

local notation "B" => binary64 sqrt sum dot

/-! ### Sums from left to right -/

theorem ErrR.foldl {ι : Type} {K : ℕ} {q w : ι → ℝ} {f : ι → ℚ} (L : List ι) (h : ∀ i ∈ L, ErrR K (w i) (q i) (f i)) :
    ∀ {J : ℕ} {w₀ q₀ : ℝ} {f₀ : ℚ}, K ≤ J → ErrR J w₀ q₀ f₀ →
      ErrR (J + L.length) (w₀ + (L.map w).sum) (q₀ + (L.map q).sum) ((L.map f).foldl (Arith.add B) f₀) := by
  induction L with
  | nil =>
    intro J w₀ q₀ f₀ _ h0
    simpa using h0
  | cons a L ih =>
    intro J w₀ q₀ f₀ hJ h0
    have h1 := h0.add (h a List.mem_cons_self)
    rw [max_eq_left hJ] at h1
    have h2 := ih (fun i hi => h i (List.mem_cons_of_mem _ hi)) (by omega : K ≤ J + 1) h1
    rw [List.map_cons, List.map_cons, List.map_cons, List.sum_cons, List.sum_cons, List.foldl_cons, List.length_cons,
      ← add_assoc w₀, ← add_assoc q₀, show J + (L.length + 1) = J + 1 + L.length by omega]
    exact h2

/-! ### Pairs of samples -/

/-- The pairs of samples, in the order of the loops. -/
def samplePairs (k : ℕ) : List (Fin k × Fin k) :=
  (List.finRange k).flatMap fun (b : Fin k) =>
    ((List.finRange k).filter fun (c : Fin k) => decide ((b : ℕ) + 1 ≤ (c : ℕ))).map fun c => (b, c)

theorem pairEnergies_eq (s : EstStat) (d : Fin (∑ b, size b) → Fin (∑ b, size b) → ℚ) :
    Arith.pairEnergies B s d = (samplePairs k).map fun bc => Arith.pairEnergy B s d bc.1 bc.2 := by
  unfold Arith.pairEnergies samplePairs
  rw [List.map_flatMap]
  simp only [List.map_map]
  rfl

theorem length_samplePairs : (samplePairs k).length ≤ k ^ 2 := by
  have : (samplePairs k).length = (upperPairs k).length := rfl
  rw [this, sq]
  exact length_upperPairs_le

theorem samplePairs_ne_nil (hk : 2 ≤ k) : samplePairs k ≠ [] := by
  have := length_upperPairs_pos hk
  intro h
  have h2 : (samplePairs k).length = (upperPairs k).length := rfl
  rw [h, List.length_nil] at h2
  omega

theorem sum_samplePairs (f : Fin k → Fin k → ℝ) :
    ((samplePairs k).map fun bc => f bc.1 bc.2).sum = ∑ b, ∑ c ∈ Finset.univ.filter (b < ·), f b c := by
  unfold samplePairs
  rw [List.map_flatMap, List.flatMap, List.sum_flatten, List.map_map, ← List.ofFn_eq_map, List.sum_ofFn]
  refine Finset.sum_congr rfl fun b _ => ?_
  simp only [Function.comp, List.map_map]
  rw [← List.sum_toFinset _ ((List.nodup_finRange k).filter _)]
  refine Finset.sum_congr ?_ fun _ _ => rfl
  ext c
  simp

/-! ### The statistic -/

/-- `n m / (n + m) ≤ (n + m) / 4`. -/
theorem coefficient_le (a b : ℕ) : (a : ℝ) * b / (a + b) ≤ (a + b) / 4 := by
  rcases Nat.eq_zero_or_pos (a + b) with h | h
  · have ha : a = 0 := by omega
    have hb : b = 0 := by omega
    simp [ha, hb]
  · have h' : (0 : ℝ) < a + b := by exact_mod_cast h
    rw [div_le_div_iff₀ h' (by norm_num)]
    nlinarith [sq_nonneg ((a : ℝ) - b)]

theorem sum_add_pairs (f : Fin k → ℝ) : ∑ b, ∑ c ∈ Finset.univ.filter (b < ·), (f b + f c) = ((k : ℝ) - 1) * ∑ b, f b := by
  have h1 : ∑ b, ∑ c ∈ Finset.univ.filter (b < ·), f c = ∑ c, ∑ b ∈ Finset.univ.filter (· < c), f c := by
    refine Finset.sum_comm' ?_
    intro b c
    simp
  simp only [Finset.sum_add_distrib]
  rw [h1, ← Finset.sum_add_distrib, Finset.mul_sum]
  refine Finset.sum_congr rfl fun b _ => ?_
  rw [Finset.sum_const, Finset.sum_const, nsmul_eq_mul, nsmul_eq_mul, ← add_mul]
  congr 1
  have e1 : (Finset.univ.filter (b < ·)).card = k - 1 - b := by
    rw [show (Finset.univ.filter (b < ·)) = Finset.Ioi b by ext; simp, Fin.card_Ioi]
  have e2 : (Finset.univ.filter (· < b)).card = (b : ℕ) := by
    rw [show (Finset.univ.filter (· < b)) = Finset.Iio b by ext; simp, Fin.card_Iio]
  rw [e1, e2]
  have hb := b.isLt
  have : k - 1 - (b : ℕ) + b = k - 1 := by omega
  rw [← Nat.cast_add, this, Nat.cast_sub (by omega)]
  simp

theorem errR_pair (h : IsFloat64 sqrt sum dot) (s : EstStat) (x : Fin n → Fin p → ℚ) (y : Fin m → Fin p → ℚ) {D : ℝ}
    (hxx : ∀ i j, Spec.dist 1 (toReal x i) (toReal x j) ≤ D) (hyy : ∀ i j, Spec.dist 1 (toReal y i) (toReal y j) ≤ D)
    (hxy : ∀ i j, Spec.dist 1 (toReal x i) (toReal y j) ≤ D) (hn : Spec.minSize s ≤ n) (hm : Spec.minSize s ≤ m) :
    ErrR (max n m ^ 2 + p + 15) ((n : ℝ) * m / (n + m) * (4 * D))
      ((n : ℝ) * m / (n + m) * Spec.energyVal s 1 (toReal x) (toReal y)) (Arith.energyTestStatistic B s x y) := by
  have key : |((Arith.energyDistance B s x y : ℚ) : ℝ) - Spec.energyVal s 1 (toReal x) (toReal y)|
      ≤ ((1 + uRound) ^ (max n m ^ 2 + p + 10) - 1) * (4 * D) ∧ |Spec.energyVal s 1 (toReal x) (toReal y)| ≤ 4 * D := by
    cases s
    · exact energyU_error h x y hxx hyy hxy hn hm
    · exact energyV_error h x y hxx hyy hxy hn hm
  have hn0 : 0 < n := lt_of_lt_of_le (by cases s <;> decide) hn
  have hm0 : 0 < m := lt_of_lt_of_le (by cases s <;> decide) hm
  refine ⟨?_, energyTest_error hn0 hm0 key.1 key.2⟩
  rw [abs_mul, abs_of_nonneg (by positivity)]
  exact mul_le_mul_of_nonneg_left key.2 (by positivity)

theorem size_le_sum (b : Fin k) : size b ≤ ∑ b, size b := Finset.single_le_sum (fun _ _ => Nat.zero_le _) (Finset.mem_univ b)

/-- The statistic of the energy test for samples which are cut from the pooled sample. -/
theorem errR_energyMultivariate (h : IsFloat64 sqrt sum dot) (hk : 2 ≤ k) (s : EstStat)
    (x : (b : Fin k) → Fin (size b) → Fin p → ℚ) {D : ℝ}
    (hD : ∀ b i c j, Spec.dist 1 (toReal (x b) i) (toReal (x c) j) ≤ D) (hs : ∀ b, Spec.minSize s ≤ size b) :
    ErrR ((∑ b, size b) ^ 2 + k ^ 2 + p + 15) ((k - 1) * (∑ b, size b : ℕ) * D)
      (Spec.energyTestVal s 1 fun b => toReal (x b))
      (Arith.energyMultivariate B s (Arith.cdist B (Arith.pooled x) (Arith.pooled x))) := by
  have hpos : ∀ b, 0 < size b := fun b => lt_of_lt_of_le (by cases s <;> decide) (hs b)
  have D0 : 0 ≤ D := by
    have b : Fin k := ⟨0, by omega⟩
    refine le_trans ?_ (hD b ⟨0, hpos b⟩ b ⟨0, hpos b⟩)
    unfold Spec.dist
    positivity
  have one : ∀ bc : Fin k × Fin k, ErrR ((∑ b, size b) ^ 2 + p + 15)
      ((size bc.1 : ℝ) * size bc.2 / (size bc.1 + size bc.2) * (4 * D))
      ((size bc.1 : ℝ) * size bc.2 / (size bc.1 + size bc.2) * Spec.energyVal s 1 (toReal (x bc.1)) (toReal (x bc.2)))
      (Arith.pairEnergy B s (Arith.cdist B (Arith.pooled x) (Arith.pooled x)) bc.1 bc.2) := by
    intro bc
    rw [pairEnergy_cdist]
    refine (errR_pair h s (x bc.1) (x bc.2) (hD _ · _ ·) (hD _ · _ ·) (hD _ · _ ·) (hs _) (hs _)).mono ?_ le_rfl
    have : max (size bc.1) (size bc.2) ≤ ∑ b, size b := max_le (size_le_sum _) (size_le_sum _)
    have := Nat.pow_le_pow_left this 2
    omega
  have hlen := length_samplePairs (k := k)
  have hsum := sum_samplePairs fun b c =>
    (size b : ℝ) * size c / (size b + size c) * Spec.energyVal s 1 (toReal (x b)) (toReal (x c))
  have hsize := sum_samplePairs fun b c => (size b : ℝ) * size c / (size b + size c) * (4 * D)
  have hle : ∑ b, ∑ c ∈ Finset.univ.filter (b < ·), (size b : ℝ) * size c / (size b + size c) * (4 * D)
      ≤ (k - 1) * (∑ b, size b : ℕ) * D := by
    calc _ ≤ ∑ b, ∑ c ∈ Finset.univ.filter (b < ·), ((size b : ℝ) * D + size c * D) := by
          refine Finset.sum_le_sum fun b _ => Finset.sum_le_sum fun c _ => ?_
          have := mul_le_mul_of_nonneg_right (coefficient_le (size b) (size c)) (show 0 ≤ 4 * D by linarith)
          linarith
      _ = _ := by
          rw [sum_add_pairs fun b => (size b : ℝ) * D, ← Finset.sum_mul]
          push_cast
          ring
  unfold Arith.energyMultivariate
  rw [pairEnergies_eq]
  rcases hL : samplePairs k with _ | ⟨bc, L⟩
  · exact absurd hL (samplePairs_ne_nil hk)
  rw [hL] at hlen hsum hsize
  have h1 := ErrR.foldl (sqrt := sqrt) (sum := sum) (dot := dot) L (fun i _ => one i) le_rfl (one bc)
  rw [List.map_cons, List.sum_cons] at hsum hsize
  rw [hsum, hsize] at h1
  rw [List.length_cons] at hlen
  exact h1.mono (by omega) hle

end Dcor

/-
C88: permutation tests of samples with bad observations. C89: the p-values of the permutation tests in `float64`.
-/
import Verif.Proofs.FloatTests
import Verif.Props.NonFinite

namespace Dcor.Props

open Dcor F64

section ieee

variable {sqrt : F64 → F64} {sum : List F64 → F64} {dot : List (F64 × F64) → F64} {n p q r k : ℕ} {size : Fin k → ℕ}

/-! ### Bad observations -/

/-- C88, `distance_covariance_test`: if some distance between observations of `x` or of `y` is not finite, because an
observation is NaN or infinite or because the distance overflows, the statistic is NaN and the p-value is
`1 / (num_resamples + 1)`. -/
theorem C88_distance_covariance_test (h : IsIeee64 sqrt sum dot) (perms : List (Equiv.Perm (Fin n)))
    (hp : perms.length < 2 ^ 53) (x : Fin n → Fin p → F64) (y : Fin n → Fin q → F64) (i j : Fin n)
    (hd : ¬ ((ieee64 sqrt sum dot).cdist x x i j).Finite ∨ ¬ ((ieee64 sqrt sum dot).cdist y y i j).Finite) :
    ((ieee64 sqrt sum dot).dcovTest perms x y).statistic = nan ∧
      ((ieee64 sqrt sum dot).dcovTest perms x y).pvalue = F64.round (1 / ((perms.length : ℚ) + 1)) := by
  have hs : (ieee64 sqrt sum dot).imul n ((ieee64 sqrt sum dot).meanProduct
      ((ieee64 sqrt sum dot).doubleCentered ((ieee64 sqrt sum dot).euclidean x))
      ((ieee64 sqrt sum dot).doubleCentered ((ieee64 sqrt sum dot).euclidean y))) = nan := by
    rw [meanProduct_nan h (hd.imp (doubleCentered_nan h) (doubleCentered_nan h))]
    exact mul_nan _
  exact ⟨hs, pvalue_nan h perms hp _ _ hs⟩

/-- C88, `partial_distance_covariance_test`: the same if some distance between different observations of `x`, of `y` or of
`z` is not finite. -/
theorem C88_partial_test (h : IsIeee64 sqrt sum dot) (perms : List (Equiv.Perm (Fin n)))
    (hp : perms.length < 2 ^ 53) (x : Fin n → Fin p → F64) (y : Fin n → Fin q → F64) (z : Fin n → Fin r → F64) (i j : Fin n)
    (hij : i ≠ j) (hd : ¬ ((ieee64 sqrt sum dot).cdist x x i j).Finite ∨ ¬ ((ieee64 sqrt sum dot).cdist y y i j).Finite ∨
      ¬ ((ieee64 sqrt sum dot).cdist z z i j).Finite) :
    ((ieee64 sqrt sum dot).partialTest perms x y z).statistic = nan ∧
      ((ieee64 sqrt sum dot).partialTest perms x y z).pvalue = F64.round (1 / ((perms.length : ℚ) + 1)) := by
  have hs : (ieee64 sqrt sum dot).partialCovariance x y z = nan := by
    refine uProduct_nan h (i := i) (j := j) ?_
    rcases hd with hd | hd | hd
    · exact Or.inl (complementary_nan h (Or.inl (uDistanceMatrix_nan h hij hd)))
    · exact Or.inr (complementary_nan h (Or.inl (uDistanceMatrix_nan h hij hd)))
    · exact Or.inl (complementary_nan h (Or.inr (uDistanceMatrix_nan h hij hd)))
  have hs' : (ieee64 sqrt sum dot).imul n ((ieee64 sqrt sum dot).partialCovariance x y z) = nan := by
    rw [hs]
    exact mul_nan _
  exact ⟨hs', pvalue_nan h perms hp _ _ hs'⟩

/-- C88, partial distance covariance: NaN under the same condition. -/
theorem C88_partial_covariance (h : IsIeee64 sqrt sum dot) (x : Fin n → Fin p → F64) (y : Fin n → Fin q → F64)
    (z : Fin n → Fin r → F64) (i j : Fin n) (hij : i ≠ j)
    (hd : ¬ ((ieee64 sqrt sum dot).cdist x x i j).Finite ∨ ¬ ((ieee64 sqrt sum dot).cdist y y i j).Finite ∨
      ¬ ((ieee64 sqrt sum dot).cdist z z i j).Finite) :
    (ieee64 sqrt sum dot).partialCovariance x y z = nan := by
  refine uProduct_nan h (i := i) (j := j) ?_
  rcases hd with hd | hd | hd
  · exact Or.inl (complementary_nan h (Or.inl (uDistanceMatrix_nan h hij hd)))
  · exact Or.inr (complementary_nan h (Or.inl (uDistanceMatrix_nan h hij hd)))
  · exact Or.inl (complementary_nan h (Or.inr (uDistanceMatrix_nan h hij hd)))

/-- The distance between an observation with a NaN or infinite coordinate and any observation, itself included, is not
finite: the hypothesis of the theorems above is met by bad observations. -/
theorem C88_bad_observation (h : IsIeee64 sqrt sum dot) (x : Fin n → Fin p → F64) (i j : Fin n) (c : Fin p)
    (hx : ¬ (x i c).Finite) : ¬ ((ieee64 sqrt sum dot).cdist x x i j).Finite := by
  have := cdist_top h x x (i := i) (j := j) (k := c) (sub_left_not_finite hx _)
  rcases this with e | e <;> rw [e] <;> exact id

/-- C88, `energy_test`: if some coordinate of an observation of some sample is NaN or infinite, the statistic is NaN and
the p-value is `1 / (num_resamples + 1)`. -/
theorem C88_energy_test (h : IsIeee64 sqrt sum dot) (s : EstStat) (perms : List (Equiv.Perm (Fin (∑ b, size b))))
    (hp : perms.length < 2 ^ 53) (x : (b : Fin k) → Fin (size b) → Fin p → F64) (hk : 2 ≤ k) (hsize : ∀ b, 0 < size b)
    (b : Fin k) (i : Fin (size b)) (c : Fin p) (hx : ¬ (x b i c).Finite) :
    ((ieee64 sqrt sum dot).energyTest s perms x).statistic = nan ∧
      ((ieee64 sqrt sum dot).energyTest s perms x).pvalue = F64.round (1 / ((perms.length : ℚ) + 1)) := by
  have hs : (ieee64 sqrt sum dot).energyMultivariate s ((ieee64 sqrt sum dot).cdist (Arith.pooled x) (Arith.pooled x))
      = nan := by
    have hpair : ∀ b c : Fin k, (ieee64 sqrt sum dot).pairEnergy s
        ((ieee64 sqrt sum dot).cdist (Arith.pooled x) (Arith.pooled x)) b c
        = (ieee64 sqrt sum dot).energyTestStatistic s (x b) (x c) := by
      intro b c
      exact pairEnergy_cdist _ s x b c
    have hmem : nan ∈ (ieee64 sqrt sum dot).pairEnergies s
        ((ieee64 sqrt sum dot).cdist (Arith.pooled x) (Arith.pooled x)) := by
      obtain ⟨d, hd⟩ : ∃ d : Fin k, d ≠ b := by
        have : Nontrivial (Fin k) := Fin.nontrivial_iff_two_le.2 hk
        exact exists_ne b
      rcases lt_or_gt_of_ne hd with hlt | hlt
      · exact mem_pairEnergies.2 ⟨d, b, hlt, (hpair d b).trans (C85_energy_test h s _ _ (hsize d) (hsize b) c (Or.inr ⟨i, hx⟩))⟩
      · exact mem_pairEnergies.2 ⟨b, d, hlt, (hpair b d).trans (C85_energy_test h s _ _ (hsize b) (hsize d) c (Or.inl ⟨i, hx⟩))⟩
    exact energyMultivariate_nan hmem
  exact ⟨hs, pvalue_nan h perms hp _ _ hs⟩

/-- Ninety-nine resamples. -/
def somePerms : List (Equiv.Perm (Fin 4)) :=
  List.replicate 99 (Equiv.swap 0 2)

/-- With 99 permutations the test of a sample with a NaN and an infinite observation reports 0.01. -/
example : ((ieee64 sqrtSeq sumSeq dotSeq).dcovTest somePerms (fun i (_ : Fin 1) => badX i) (fun i (_ : Fin 1) => goodY i)).pvalue
    = F64.round (1 / 100) := by
  have := (C88_distance_covariance_test ieee64_seq somePerms (by rw [somePerms, List.length_replicate]; norm_num)
    (fun i (_ : Fin 1) => badX i) (fun i (_ : Fin 1) => goodY i) 1 0 (Or.inl (C88_bad_observation ieee64_seq _ 1 0 0 id))).2
  rw [this, somePerms, List.length_replicate]
  norm_num

example : ((ieee64 sqrtSeq sumSeq dotSeq).partialTest somePerms (fun i (_ : Fin 1) => goodY i) (fun i (_ : Fin 1) => goodY i)
    (fun i (_ : Fin 1) => badX i)).statistic = nan :=
  (C88_partial_test ieee64_seq somePerms (by rw [somePerms, List.length_replicate]; norm_num) _ _ _ 1 0 (by decide)
    (Or.inr (Or.inr (C88_bad_observation ieee64_seq (fun i (_ : Fin 1) => badX i) 1 0 0 id)))).1

/-- Finite observations whose distance overflows. -/
example : ((ieee64 sqrtSeq sumSeq dotSeq).dcovTest [] (fun (i : Fin 2) (_ : Fin 1) => ![fin 0, fin (2 ^ 512)] i)
    (fun i (_ : Fin 1) => ![fin 0, fin 1] i)).pvalue = F64.round (1 / 1) := by
  have h : ¬ ((ieee64 sqrtSeq sumSeq dotSeq).cdist (fun (i : Fin 2) (_ : Fin 1) => ![fin 0, fin (2 ^ 512)] i)
      (fun (i : Fin 2) (_ : Fin 1) => ![fin 0, fin (2 ^ 512)] i) 0 1).Finite := by
    have e : (ieee64 sqrtSeq sumSeq dotSeq).cdist (fun (i : Fin 2) (_ : Fin 1) => ![fin 0, fin (2 ^ 512)] i)
      (fun (i : Fin 2) (_ : Fin 1) => ![fin 0, fin (2 ^ 512)] i) 0 1 = inf false := by decide +kernel
    rw [e]
    exact id
  have := (C88_distance_covariance_test ieee64_seq [] (by norm_num) (fun (i : Fin 2) (_ : Fin 1) => ![fin 0, fin (2 ^ 512)] i)
    (fun i (_ : Fin 1) => ![fin 0, fin 1] i) 0 1 (Or.inl h)).2
  rw [this]
  norm_num

/-! ### The p-values -/

/-- C89: the p-value of a permutation test of any matrix with any statistic is the correctly rounded quotient of the number
of permutations whose statistic is above the observed one, plus one, and the number of permutations plus one. In
particular neither the order in which the counts are added nor the values of the statistics (they may be NaN) matter. -/
theorem C89_pvalue (h : IsIeee64 sqrt sum dot) (perms : List (Equiv.Perm (Fin n))) (hp : perms.length < 2 ^ 53)
    (d : Fin n → Fin n → F64) (stat : (Fin n → Fin n → F64) → F64) :
    ((ieee64 sqrt sum dot).permutationTest perms d stat).pvalue =
      F64.round (((perms.filter fun π => F64.lt (stat d) (stat fun i j => d (π i) (π j))).length + 1 : ℚ) /
        ((perms.length : ℚ) + 1)) := by
  rw [pvalue_ieee h perms hp, List.countP_eq_length_filter]
  rfl

/-- C89: the p-value is a number above zero and at most one, within `2 ^ -53` of the exact quotient. -/
theorem C89_pvalue_range (h : IsIeee64 sqrt sum dot) (perms : List (Equiv.Perm (Fin n))) (hp : perms.length < 2 ^ 53)
    (d : Fin n → Fin n → F64) (stat : (Fin n → Fin n → F64) → F64) :
    ∃ v : ℚ, ((ieee64 sqrt sum dot).permutationTest perms d stat).pvalue = fin v ∧ 0 < v ∧ v ≤ 1 ∧
      |v - ((perms.filter fun π => F64.lt (stat d) (stat fun i j => d (π i) (π j))).length + 1 : ℚ) /
        ((perms.length : ℚ) + 1)| ≤ 1 / 2 ^ 53 := by
  have hle : (perms.filter fun π => F64.lt (stat d) (stat fun i j => d (π i) (π j))).length ≤ perms.length :=
    List.length_filter_le _ _
  obtain ⟨c, hc⟩ : ∃ c, c = (perms.filter fun π => F64.lt (stat d) (stat fun i j => d (π i) (π j))).length := ⟨_, rfl⟩
  rw [C89_pvalue h perms hp, ← hc]
  rw [← hc] at hle
  have hR : (0 : ℚ) < (perms.length : ℚ) + 1 := by positivity
  have hq0 : (0 : ℚ) < ((c : ℚ) + 1) / ((perms.length : ℚ) + 1) := by positivity
  have hq1 : ((c : ℚ) + 1) / ((perms.length : ℚ) + 1) ≤ 1 := by
    rw [div_le_one hR]
    have : (c : ℚ) ≤ perms.length := by exact_mod_cast hle
    linarith
  have hqlo : (1 : ℚ) / 2 ^ 53 ≤ ((c : ℚ) + 1) / ((perms.length : ℚ) + 1) := by
    apply div_le_div₀ (by positivity) (by linarith [(Nat.cast_nonneg c : (0 : ℚ) ≤ c)]) hR
    have : perms.length + 1 ≤ 2 ^ 53 := hp
    exact_mod_cast this
  obtain ⟨t, ht⟩ : ∃ t : ℚ, t = ((c : ℚ) + 1) / ((perms.length : ℚ) + 1) := ⟨_, rfl⟩
  rw [← ht] at hq0 hq1 hqlo ⊢
  have h1 : |round64 t| ≤ 2 ^ (0 : ℤ) := round64_le_pow (by rw [zpow_zero, abs_of_pos hq0]; exact hq1)
  rw [zpow_zero] at h1
  refine ⟨round64 t, ?_, round64_pos hq0, (abs_le.1 h1).2, ?_⟩
  · rw [F64.round_eq (Or.inr ?_), if_neg]
    · rw [not_le]
      exact lt_of_le_of_lt h1 (one_lt_pow₀ (by norm_num) (by norm_num))
    · rw [abs_of_pos hq0]
      refine le_trans ?_ hqlo
      rw [one_div, ← zpow_natCast, ← zpow_neg]
      exact zpow_le_zpow_right₀ (by norm_num) (by norm_num)
  · have := round64_err t
    rw [abs_of_pos hq0] at this
    exact this.trans (div_le_div_of_nonneg_right hq1 (by positivity))

/-- C89: the statistic of `energy_test` with two samples is `energy_test_statistic` bit for bit, although the distances are
those of the pooled sample. -/
theorem C89_energy_two_samples (sqrt : F64 → F64) (sum : List F64 → F64) (dot : List (F64 × F64) → F64) (s : EstStat)
    {size : Fin 2 → ℕ} (perms : List (Equiv.Perm (Fin (∑ b, size b)))) (x : (b : Fin 2) → Fin (size b) → Fin p → F64) :
    ((ieee64 sqrt sum dot).energyTest s perms x).statistic = (ieee64 sqrt sum dot).energyTestStatistic s (x 0) (x 1) := by
  have := pairEnergy_cdist (ieee64 sqrt sum dot) s x 0 1
  rw [← this]
  rfl

/-- C89: with three samples it is the sum of the three statistics of pairs, from left to right. -/
theorem C89_energy_three_samples (sqrt : F64 → F64) (sum : List F64 → F64) (dot : List (F64 × F64) → F64) (s : EstStat)
    {size : Fin 3 → ℕ} (perms : List (Equiv.Perm (Fin (∑ b, size b)))) (x : (b : Fin 3) → Fin (size b) → Fin p → F64) :
    ((ieee64 sqrt sum dot).energyTest s perms x).statistic =
      (ieee64 sqrt sum dot).add ((ieee64 sqrt sum dot).add ((ieee64 sqrt sum dot).energyTestStatistic s (x 0) (x 1))
        ((ieee64 sqrt sum dot).energyTestStatistic s (x 0) (x 2))) ((ieee64 sqrt sum dot).energyTestStatistic s (x 1) (x 2)) := by
  rw [← pairEnergy_cdist (ieee64 sqrt sum dot) s x 0 1, ← pairEnergy_cdist (ieee64 sqrt sum dot) s x 0 2,
    ← pairEnergy_cdist (ieee64 sqrt sum dot) s x 1 2]
  rfl

/-- One of two permutations has a larger statistic: the p-value is 2/3, rounded. -/
example : ((ieee64 sqrtSeq sumSeq dotSeq).dcovTest [Equiv.swap 0 2, Equiv.swap 1 3] (fun i (_ : Fin 1) => goodY i)
    (fun (i : Fin 4) (_ : Fin 1) => ![fin 1, fin 2, fin 4, fin 8] i)).pvalue = F64.round (2 / 3) := by
  decide +kernel

example : ((ieee64 sqrtSeq sumSeq dotSeq).energyTest .v (size := ![2, 1]) [] (fun b i (_ : Fin 1) =>
    fin ((b : ℕ) * 3 + (i : ℕ)))).statistic ≠ fin 0 := by
  decide +kernel

end ieee

end Dcor.Props

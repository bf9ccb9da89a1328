/-
A correctly rounded square root that commutes with powers of two: the assumptions on `float64` can be met.
-/
import Verif.Proofs.Scale

namespace Dcor

/-- The square root rounded to nearest. -/
def sqrt64 (q : ℚ) : ℚ :=
  if q ≤ 0 then 0 else
    ((Nat.sqrt ⌊4 * (q * 4 ^ (52 - Int.log 4 q))⌋₊ + 1) / 2 : ℕ) * 2 ^ (-(52 - Int.log 4 q))

theorem sqrt64_spec (q : ℚ) (hq : 0 ≤ q) : SqrtTo q (sqrt64 q) := by
  rcases hq.eq_or_lt with h | h
  · exact Or.inl ⟨h.symm, by unfold sqrt64; rw [if_pos (by linarith)]⟩
  unfold sqrt64
  rw [if_neg (by linarith)]
  have h1 : (4 : ℚ) ^ Int.log 4 q ≤ q := by exact_mod_cast Int.zpow_log_le_self (by norm_num) h
  have h2 : q < (4 : ℚ) ^ (Int.log 4 q + 1) := by exact_mod_cast Int.lt_zpow_succ_log_self (b := 4) (by norm_num) q
  generalize Int.log 4 q = j at h1 h2
  have hk1 : 2 ^ 104 ≤ q * 4 ^ (52 - j) := by
    rw [zpow_sub₀ (by norm_num), ← mul_div_assoc, le_div_iff₀ (by positivity)]
    calc (2 : ℚ) ^ 104 * 4 ^ j ≤ 2 ^ 104 * q := mul_le_mul_of_nonneg_left h1 (by positivity)
      _ = q * 4 ^ (52 : ℤ) := by rw [mul_comm]; norm_num
  have hk2 : q * 4 ^ (52 - j) < 2 ^ 106 := by
    rw [zpow_sub₀ (by norm_num), ← mul_div_assoc, div_lt_iff₀ (by positivity)]
    rw [zpow_add_one₀ (by norm_num)] at h2
    calc q * (4 : ℚ) ^ (52 : ℤ) < 4 ^ j * 4 * 4 ^ (52 : ℤ) := mul_lt_mul_of_pos_right h2 (by positivity)
      _ = 2 ^ 106 * 4 ^ j := by
        rw [show ((4 : ℚ) ^ (52 : ℤ)) = 2 ^ 104 by norm_num]; ring
  set t := q * 4 ^ (52 - j) with ht
  have ht0 : 0 ≤ 4 * t := by positivity
  generalize hs : Nat.sqrt ⌊4 * t⌋₊ = s
  have hs1 : (s : ℚ) ^ 2 ≤ 4 * t := by
    have := Nat.sqrt_le' ⌊4 * t⌋₊
    rw [hs] at this
    have h3 : ((s ^ 2 : ℕ) : ℚ) ≤ (⌊4 * t⌋₊ : ℚ) := by exact_mod_cast this
    push_cast at h3
    exact h3.trans (Nat.floor_le ht0)
  have hs2 : 4 * t < ((s : ℚ) + 1) ^ 2 := by
    have := Nat.lt_succ_sqrt' ⌊4 * t⌋₊
    rw [hs] at this
    have h3 : ⌊4 * t⌋₊ + 1 ≤ (s + 1) ^ 2 := this
    have h4 : ((⌊4 * t⌋₊ + 1 : ℕ) : ℚ) ≤ (((s + 1) ^ 2 : ℕ) : ℚ) := by exact_mod_cast h3
    push_cast at h4
    exact (Nat.lt_floor_add_one (4 * t)).trans_le h4
  refine Or.inr ⟨h, 52 - j, (s + 1) / 2, hk1, hk2, rfl, ?_, ?_⟩
  · refine le_trans ?_ hs1
    rcases Nat.even_or_odd' s with ⟨c, rfl | rfl⟩
    · rw [show (2 * c + 1) / 2 = c by omega]
      push_cast
      rcases Nat.eq_zero_or_pos c with rfl | hc
      · exfalso
        norm_num at hs2 hk1
        linarith
      · have : (1 : ℚ) ≤ c := by exact_mod_cast hc
        nlinarith
    · rw [show (2 * c + 1 + 1) / 2 = c + 1 by omega]
      push_cast
      nlinarith
  · refine hs2.le.trans ?_
    rcases Nat.even_or_odd' s with ⟨c, rfl | rfl⟩
    · rw [show (2 * c + 1) / 2 = c by omega]
      push_cast
      nlinarith
    · rw [show (2 * c + 1 + 1) / 2 = c + 1 by omega]
      push_cast
      have : (0 : ℚ) ≤ c := by positivity
      nlinarith

theorem intLog_scale (j : ℤ) {q : ℚ} (hq : 0 < q) : Int.log 4 (4 ^ j * q) = j + Int.log 4 q := by
  have h1 : (4 : ℚ) ^ Int.log 4 q ≤ q := by exact_mod_cast Int.zpow_log_le_self (by norm_num) hq
  have h2 : q < (4 : ℚ) ^ (Int.log 4 q + 1) := by exact_mod_cast Int.lt_zpow_succ_log_self (b := 4) (by norm_num) q
  have h4 : (0 : ℚ) < 4 ^ j := by positivity
  apply le_antisymm
  · rw [← Int.lt_add_one_iff, ← Int.lt_zpow_iff_log_lt (b := 4) (by norm_num) (by positivity)]
    push_cast
    rw [add_assoc, zpow_add₀ (by norm_num)]
    exact mul_lt_mul_of_pos_left h2 h4
  · rw [← Int.zpow_le_iff_le_log (b := 4) (by norm_num) (by positivity)]
    push_cast
    rw [zpow_add₀ (by norm_num)]
    exact mul_le_mul_of_nonneg_left h1 h4.le

theorem sqrt64_scale (j : ℤ) (q : ℚ) : sqrt64 (4 ^ j * q) = 2 ^ j * sqrt64 q := by
  have h4 : (0 : ℚ) < 4 ^ j := by positivity
  unfold sqrt64
  by_cases h : q ≤ 0
  · rw [if_pos h, if_pos (mul_nonpos_of_nonneg_of_nonpos h4.le h), mul_zero]
  · rw [if_neg h, if_neg (by
      rw [not_le] at h ⊢
      positivity), intLog_scale j (by linarith)]
    have e : (4 : ℚ) ^ j * q * 4 ^ (52 - (j + Int.log 4 q)) = q * 4 ^ (52 - Int.log 4 q) := by
      rw [show (52 - (j + Int.log 4 q)) = -j + (52 - Int.log 4 q) by ring, zpow_add₀ (by norm_num), zpow_neg]
      field_simp
    rw [e, show -(52 - (j + Int.log 4 q)) = j + -(52 - Int.log 4 q) by ring, zpow_add₀ (by norm_num : (2 : ℚ) ≠ 0)]
    ring

theorem seqSum64_scale (j : ℤ) (l : List ℚ) : seqSum64 (l.map fun a => 2 ^ j * a) = 2 ^ j * seqSum64 l := by
  have key : ∀ (l : List ℚ) (s : ℚ), (l.map fun a => 2 ^ j * a).foldl (fun s b => round64 (s + b)) (2 ^ j * s)
      = 2 ^ j * l.foldl (fun s b => round64 (s + b)) s := by
    intro l
    induction l with
    | nil => intro s; rfl
    | cons a l ih =>
      intro s
      rw [List.map_cons, List.foldl_cons, List.foldl_cons, ← mul_add, round64_scale, ih]
  cases l with
  | nil => simp [seqSum64]
  | cons a l => exact key l a

theorem seqDot64_scale (i j : ℤ) (l : List (ℚ × ℚ)) :
    seqDot64 (l.map fun p => (2 ^ i * p.1, 2 ^ j * p.2)) = 2 ^ (i + j) * seqDot64 l := by
  unfold seqDot64
  rw [← seqSum64_scale, List.map_map, List.map_map]
  congr 1
  apply List.map_congr_left
  intro p _
  simp only [Function.comp]
  rw [← round64_scale, zpow_add₀ (by norm_num)]
  congr 1
  ring

/-- The assumptions on square roots, sums and products can be met. -/
theorem float64_seq : IsFloat64 sqrt64 seqSum64 seqDot64 ∧ Equivariant sqrt64 seqSum64 seqDot64 :=
  ⟨⟨sqrt64_spec, seqSum64_sumsTo, seqDot64_dotsTo⟩, ⟨sqrt64_scale, seqSum64_scale, seqDot64_scale⟩⟩

end Dcor

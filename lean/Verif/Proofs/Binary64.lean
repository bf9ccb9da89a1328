/-
`float64` arithmetic is exact on integers up to `2 ^ 53`.
-/
import Verif.Proofs.Round64
import Verif.Proofs.IntExactMerge

namespace Dcor

/-- The number is an integer. -/
def IsInt (q : ℚ) : Prop := ∃ z : ℤ, q = z

theorem IsInt.add {a b : ℚ} : IsInt a → IsInt b → IsInt (a + b) := by
  rintro ⟨z, rfl⟩ ⟨w, rfl⟩; exact ⟨z + w, by push_cast; rfl⟩

theorem IsInt.list_sum {l : List ℚ} (h : ∀ a ∈ l, IsInt a) : IsInt l.sum := by
  induction l with
  | nil => exact ⟨0, by simp⟩
  | cons a l ih =>
    rw [List.sum_cons]
    exact (h a (by simp)).add (ih fun b hb => h b (by simp [hb]))

theorem round64_isInt {q : ℚ} (h : IsInt q) (hq : |q| ≤ 2 ^ 53) : round64 q = q := by
  obtain ⟨z, rfl⟩ := h
  exact round64_int z (by exact_mod_cast hq)

theorem abs_list_sum_le (l : List ℚ) : |l.sum| ≤ (l.map fun a => |a|).sum := by
  induction l with
  | nil => simp
  | cons a l ih =>
    rw [List.sum_cons, List.map_cons, List.sum_cons]
    exact (abs_add_le _ _).trans (by linarith)

theorem abs_sum_nonneg (l : List ℚ) : 0 ≤ (l.map fun a => |a|).sum :=
  (abs_nonneg _).trans (abs_list_sum_le l)

/-- A sum of integers is exact in any order. -/
theorem SumsTo.exact {l : List ℚ} {r : ℚ} (h : SumsTo l r) :
    (∀ a ∈ l, IsInt a) → (l.map fun a => |a|).sum ≤ 2 ^ 53 → r = l.sum := by
  induction h with
  | nil => simp
  | single a => simp
  | @add l l' a b _ _ _ _ ih1 ih2 =>
    intro hl hs
    have e1 := abs_sum_nonneg l
    have e2 := abs_sum_nonneg l'
    have e3 := (abs_list_sum_le (l ++ l')).trans hs
    rw [List.map_append, List.sum_append] at hs
    rw [ih1 (fun a ha => hl a (by simp [ha])) (by linarith), ih2 (fun a ha => hl a (by simp [ha])) (by linarith),
      ← List.sum_append]
    exact round64_isInt (IsInt.list_sum hl) e3
  | @perm l l' a _ hp ih =>
    intro hl hs
    rw [← hp.sum_eq]
    apply ih (fun a ha => hl a (hp.mem_iff.1 ha))
    rwa [(hp.map _).sum_eq]

/-- A scalar product of integers is exact in any order. -/
theorem DotsTo.exact {l : List (ℚ × ℚ)} {r : ℚ} (h : DotsTo l r) :
    (∀ p ∈ l, IsInt (p.1 * p.2)) → (l.map fun p => |p.1 * p.2|).sum ≤ 2 ^ 53 →
      r = (l.map fun p => p.1 * p.2).sum := by
  have key : ∀ l : List (ℚ × ℚ), |(l.map fun p => p.1 * p.2).sum| ≤ (l.map fun p => |p.1 * p.2|).sum := fun l => by
    have := abs_list_sum_le (l.map fun p => p.1 * p.2)
    rwa [List.map_map] at this
  have pos : ∀ l : List (ℚ × ℚ), 0 ≤ (l.map fun p => |p.1 * p.2|).sum := fun l => (abs_nonneg _).trans (key l)
  have int : ∀ l : List (ℚ × ℚ), (∀ p ∈ l, IsInt (p.1 * p.2)) → IsInt (l.map fun p => p.1 * p.2).sum := fun l hl => by
    apply IsInt.list_sum
    intro a ha
    obtain ⟨p, hp, rfl⟩ := List.mem_map.1 ha
    exact hl p hp
  induction h with
  | nil => simp
  | single a b =>
    intro hl hs
    simp only [List.map_cons, List.map_nil, List.sum_cons, List.sum_nil, add_zero] at hs ⊢
    exact round64_isInt (hl (a, b) (by simp)) hs
  | @fma a b l c _ _ ih =>
    intro hl hs
    have e1 := pos l
    have e3 := key ((a, b) :: l)
    have hi := int _ hl
    simp only [List.map_cons, List.sum_cons] at hs e3 hi ⊢
    have := abs_nonneg (a * b)
    rw [ih (fun p hp => hl p (by simp [hp])) (by linarith)]
    exact round64_isInt hi (by linarith)
  | @add l l' a b _ _ _ _ ih1 ih2 =>
    intro hl hs
    have e1 := pos l
    have e2 := pos l'
    have e3 := key (l ++ l')
    have hi := int _ hl
    rw [List.map_append, List.sum_append] at hs e3
    rw [ih1 (fun a ha => hl a (by simp [ha])) (by linarith), ih2 (fun a ha => hl a (by simp [ha])) (by linarith),
      ← List.sum_append, ← List.map_append]
    exact round64_isInt hi (by rw [List.map_append, List.sum_append] at *; linarith)
  | @perm l l' a _ hp ih =>
    intro hl hs
    rw [← (hp.map _).sum_eq]
    apply ih (fun a ha => hl a (hp.mem_iff.1 ha))
    rwa [(hp.map _).sum_eq]

/-- The square root of a square is exact, for integers up to `2 ^ 52`. -/
theorem SqrtTo.square {a : ℤ} {r : ℚ} (ha : |a| ≤ 2 ^ 52) (h : SqrtTo ((a : ℚ) * a) r) : r = |(a : ℚ)| := by
  rcases h with ⟨h0, rfl⟩ | ⟨h0, k, m, h1, h2, rfl, h3, h4⟩
  · rw [mul_self_eq_zero] at h0
    rw [h0, abs_zero]
  have ha0 : (0 : ℚ) < |(a : ℚ)| := by
    rw [abs_pos]
    rintro e
    rw [e] at h0
    simp at h0
  have hP : (0 : ℚ) < 2 ^ k := by positivity
  have e4 : ((4 : ℚ)) ^ k = 2 ^ k * 2 ^ k := by
    rw [← mul_zpow]; norm_num
  have e : (a : ℚ) * a * 4 ^ k = (|(a : ℚ)| * 2 ^ k) * (|(a : ℚ)| * 2 ^ k) := by
    rw [e4, ← abs_mul_abs_self (a : ℚ)]; ring
  rw [e] at h1 h2 h3 h4
  set t : ℚ := |(a : ℚ)| * 2 ^ k with ht
  have htp : 0 < t := mul_pos ha0 hP
  have hk : 0 ≤ k := by
    by_contra hlt
    have h5 : (2 : ℚ) ^ k ≤ 2 ^ (-1 : ℤ) := zpow_le_zpow_right₀ (by norm_num) (by omega)
    have h6 : t ≤ |(a : ℚ)| * 2 ^ (-1 : ℤ) := mul_le_mul_of_nonneg_left h5 ha0.le
    have h7 : |(a : ℚ)| ≤ 2 ^ 52 := by exact_mod_cast ha
    have h8 : (2 : ℚ) ^ (-1 : ℤ) = 1 / 2 := by norm_num
    rw [h8] at h6
    have h9 : t ≤ 2 ^ 51 := by
      have : (2 : ℚ) ^ 52 = 2 * 2 ^ 51 := by norm_num
      linarith
    have : t * t ≤ 2 ^ 51 * 2 ^ 51 := mul_le_mul h9 h9 htp.le (by norm_num)
    norm_num at this h1
    linarith
  obtain ⟨j, rfl⟩ := Int.eq_ofNat_of_zero_le hk
  have hti : t = ((|a| * 2 ^ j : ℤ) : ℚ) := by
    rw [ht]; push_cast; rfl
  have hmt : (m : ℚ) = t := by
    have hm0 : (0 : ℚ) ≤ m := by positivity
    have u1 : t - 1 < m := by
      by_contra hc
      nlinarith
    have u2 : (m : ℚ) < t + 1 := by
      by_contra hc
      nlinarith
    rw [hti] at u1 u2 ⊢
    have v1 : |a| * 2 ^ j - 1 < (m : ℤ) := by exact_mod_cast u1
    have v2 : (m : ℤ) < |a| * 2 ^ j + 1 := by exact_mod_cast u2
    have : (m : ℤ) = |a| * 2 ^ j := by omega
    exact_mod_cast this
  rw [hmt, ht, mul_assoc, zpow_neg, mul_inv_cancel₀ hP.ne', mul_one]

variable {sqrt : ℚ → ℚ} {sum : List ℚ → ℚ} {dot : List (ℚ × ℚ) → ℚ}

/-- `float64` arithmetic is exact on integers up to `2 ^ 53`. -/
theorem binary64_intExact (h : IsFloat64 sqrt sum dot) : (binary64 sqrt sum dot).IntExact (2 ^ 53) where
  add a b ha hb hab := by
    show round64 (round64 a + round64 b) = round64 ((a + b : ℤ) : ℚ)
    rw [round64_int a ha, round64_int b hb]
    push_cast
    rfl
  sub a b ha hb hab := by
    show round64 (round64 a - round64 b) = round64 ((a - b : ℤ) : ℚ)
    rw [round64_int a ha, round64_int b hb]
    push_cast
    rfl
  mul a b ha hb hab := by
    show round64 (round64 a * round64 b) = round64 ((a * b : ℤ) : ℚ)
    rw [round64_int a ha, round64_int b hb]
    push_cast
    rfl
  sum l hl := by
    show sum (l.map fun z : ℤ => round64 (z : ℚ)) = round64 ((l.sum : ℤ) : ℚ)
    have hmem : ∀ z ∈ l, |z| ≤ 2 ^ 53 := fun z hz =>
      (List.single_le_sum (l := l.map fun a => |a|) (by
        intro x hx
        obtain ⟨a, _, rfl⟩ := List.mem_map.1 hx
        exact abs_nonneg a) _ (List.mem_map_of_mem hz)).trans hl
    have e : (l.map fun z : ℤ => round64 z) = l.map fun z : ℤ => (z : ℚ) :=
      List.map_congr_left fun z hz => round64_int z (hmem z hz)
    have habs : ((l.map fun z : ℤ => (z : ℚ)).map fun a => |a|).sum = (((l.map fun a => |a|).sum : ℤ) : ℚ) := by
      rw [List.map_map, Int.cast_list_sum, List.map_map]
      congr 1
      apply List.map_congr_left
      intro z _
      simp
    have h1 := (h.sum (l.map fun z : ℤ => (z : ℚ))).exact (by
      intro a ha
      obtain ⟨z, _, rfl⟩ := List.mem_map.1 ha
      exact ⟨z, rfl⟩) (by rw [habs]; exact_mod_cast hl)
    have h2 : (l.map fun z : ℤ => (z : ℚ)).sum = ((l.sum : ℤ) : ℚ) := by
      rw [Int.cast_list_sum]
    rw [e, h1, h2, round64_int]
    have : |l.sum| ≤ (l.map fun a => |a|).sum := by
      clear hl hmem e habs h1 h2
      induction l with
      | nil => simp
      | cons a l ih =>
        rw [List.sum_cons, List.map_cons, List.sum_cons]
        exact (abs_add_le _ _).trans (by linarith)
    exact this.trans hl
  dot l hp hl := by
    show dot (l.map fun p : ℤ × ℤ => (round64 (p.1 : ℚ), round64 (p.2 : ℚ))) = round64 (((l.map fun p => p.1 * p.2).sum : ℤ) : ℚ)
    have e : (l.map fun p : ℤ × ℤ => (round64 p.1, round64 p.2)) = l.map fun p : ℤ × ℤ => ((p.1 : ℚ), (p.2 : ℚ)) :=
      List.map_congr_left fun p hp' => by rw [round64_int _ (hp p hp').1, round64_int _ (hp p hp').2]
    have habs : ((l.map fun p : ℤ × ℤ => ((p.1 : ℚ), (p.2 : ℚ))).map fun p => |p.1 * p.2|).sum
        = (((l.map fun p => |p.1 * p.2|).sum : ℤ) : ℚ) := by
      rw [List.map_map, Int.cast_list_sum, List.map_map]
      congr 1
      apply List.map_congr_left
      intro p _
      simp
    have h1 := (h.dot (l.map fun p : ℤ × ℤ => ((p.1 : ℚ), (p.2 : ℚ)))).exact (by
      intro a ha
      obtain ⟨p, _, rfl⟩ := List.mem_map.1 ha
      exact ⟨p.1 * p.2, by push_cast; rfl⟩) (by rw [habs]; exact_mod_cast hl)
    have h2 : ((l.map fun p : ℤ × ℤ => ((p.1 : ℚ), (p.2 : ℚ))).map fun p => p.1 * p.2).sum
        = (((l.map fun p => p.1 * p.2).sum : ℤ) : ℚ) := by
      rw [List.map_map, Int.cast_list_sum, List.map_map]
      congr 1
      apply List.map_congr_left
      intro p _
      simp
    rw [e, h1, h2, round64_int]
    have : ∀ l : List (ℤ × ℤ), |(l.map fun p => p.1 * p.2).sum| ≤ (l.map fun p => |p.1 * p.2|).sum := by
      intro l
      induction l with
      | nil => simp
      | cons a l ih =>
        simp only [List.map_cons, List.sum_cons]
        exact (abs_add_le _ _).trans (by linarith)
    exact (this l).trans hl
  sqrt a ha := by
    show sqrt (round64 ((a * a : ℤ) : ℚ)) = round64 ((|a| : ℤ) : ℚ)
    have h1 : |a| ≤ 2 ^ 52 := by
      by_contra hc
      have h2 := abs_mul_abs_self a
      nlinarith
    rw [round64_int _ (by rw [abs_of_nonneg (mul_self_nonneg a)]; exact ha), round64_int _ (by rw [abs_abs]; omega)]
    have := (h.sqrt ((a * a : ℤ) : ℚ) (by exact_mod_cast mul_self_nonneg a))
    push_cast at this ⊢
    exact this.square h1

/-! ### The assumptions can be met -/

theorem foldl_sumsTo (l : List ℚ) : ∀ (l₀ : List ℚ) (s : ℚ), l₀ ≠ [] → SumsTo l₀ s →
    SumsTo (l₀ ++ l) (l.foldl (fun s b => round64 (s + b)) s) := by
  induction l with
  | nil => intro l₀ s _ hs; simpa using hs
  | cons a l ih =>
    intro l₀ s h0 hs
    have := ih (l₀ ++ [a]) (round64 (s + a)) (by simp) (SumsTo.add h0 (by simp) hs (SumsTo.single a))
    simpa using this

theorem seqSum64_sumsTo (l : List ℚ) : SumsTo l (seqSum64 l) := by
  cases l with
  | nil => exact SumsTo.nil
  | cons a l => exact foldl_sumsTo l [a] a (by simp) (SumsTo.single a)

theorem foldl_dotsTo (l : List (ℚ × ℚ)) : ∀ (l₀ : List (ℚ × ℚ)) (s : ℚ), l₀ ≠ [] → DotsTo l₀ s →
    DotsTo (l₀ ++ l) ((l.map fun p => round64 (p.1 * p.2)).foldl (fun s b => round64 (s + b)) s) := by
  induction l with
  | nil => intro l₀ s _ hs; simpa using hs
  | cons a l ih =>
    intro l₀ s h0 hs
    have := ih (l₀ ++ [a]) (round64 (s + round64 (a.1 * a.2))) (by simp)
      (DotsTo.add h0 (by simp) hs (DotsTo.single a.1 a.2))
    simpa using this

theorem seqDot64_dotsTo (l : List (ℚ × ℚ)) : DotsTo l (seqDot64 l) := by
  cases l with
  | nil => exact DotsTo.nil
  | cons a l => exact foldl_dotsTo l [a] _ (by simp) (DotsTo.single a.1 a.2)

theorem exists_sqrtTo (q : ℚ) (hq : 0 ≤ q) : ∃ r, SqrtTo q r := by
  rcases hq.eq_or_lt with h | h
  · exact ⟨0, Or.inl ⟨h.symm, rfl⟩⟩
  obtain ⟨j, h1, h2⟩ := exists_mem_Ico_zpow (x := q) (y := (4 : ℚ)) h (by norm_num)
  have hk1 : 2 ^ 104 ≤ q * 4 ^ (52 - j) := by
    rw [zpow_sub₀ (by norm_num), ← mul_div_assoc, le_div_iff₀ (by positivity)]
    calc (2 : ℚ) ^ 104 * 4 ^ j ≤ 2 ^ 104 * q := mul_le_mul_of_nonneg_left h1 (by positivity)
      _ = q * 4 ^ (52 : ℤ) := by rw [mul_comm]; norm_num
  have hk2 : q * 4 ^ (52 - j) < 2 ^ 106 := by
    rw [zpow_sub₀ (by norm_num), ← mul_div_assoc, div_lt_iff₀ (by positivity)]
    rw [zpow_add_one₀ (by norm_num)] at h2
    calc q * (4 : ℚ) ^ (52 : ℤ) < 4 ^ j * 4 * 4 ^ (52 : ℤ) := mul_lt_mul_of_pos_right h2 (by positivity)
      _ = 2 ^ 106 * 4 ^ j := by
        rw [show ((4 : ℚ) ^ (52 : ℤ)) = 2 ^ 104 by norm_num]; ring
  set t := q * 4 ^ (52 - j) with ht
  have ht0 : 0 ≤ 4 * t := by positivity
  -- `s = ⌊2 √t⌋`
  obtain ⟨s, hs1, hs2⟩ : ∃ s : ℕ, (s : ℚ) ^ 2 ≤ 4 * t ∧ 4 * t < ((s : ℚ) + 1) ^ 2 := by
    refine ⟨Nat.sqrt ⌊4 * t⌋₊, ?_, ?_⟩
    · have := Nat.sqrt_le' ⌊4 * t⌋₊
      have h3 : ((Nat.sqrt ⌊4 * t⌋₊ ^ 2 : ℕ) : ℚ) ≤ (⌊4 * t⌋₊ : ℚ) := by exact_mod_cast this
      push_cast at h3
      exact h3.trans (Nat.floor_le ht0)
    · have := Nat.lt_succ_sqrt' ⌊4 * t⌋₊
      have h3 : ⌊4 * t⌋₊ + 1 ≤ (Nat.sqrt ⌊4 * t⌋₊ + 1) ^ 2 := this
      have h4 : ((⌊4 * t⌋₊ + 1 : ℕ) : ℚ) ≤ (((Nat.sqrt ⌊4 * t⌋₊ + 1) ^ 2 : ℕ) : ℚ) := by exact_mod_cast h3
      push_cast at h4
      exact (Nat.lt_floor_add_one (4 * t)).trans_le h4
  refine ⟨((s + 1) / 2 : ℕ) * 2 ^ (-(52 - j)), Or.inr ⟨h, 52 - j, (s + 1) / 2, hk1, hk2, rfl, ?_, ?_⟩⟩
  · refine le_trans ?_ hs1
    rcases Nat.even_or_odd' s with ⟨c, rfl | rfl⟩
    · rw [show (2 * c + 1) / 2 = c by omega]
      push_cast
      rcases Nat.eq_zero_or_pos c with rfl | hc
      · exfalso
        norm_num at hs2 hk1
        linarith
      · have : (1 : ℚ) ≤ c := by exact_mod_cast hc
        nlinarith
    · rw [show (2 * c + 1 + 1) / 2 = c + 1 by omega]
      push_cast
      nlinarith
  · refine hs2.le.trans ?_
    rcases Nat.even_or_odd' s with ⟨c, rfl | rfl⟩
    · rw [show (2 * c + 1) / 2 = c by omega]
      push_cast
      nlinarith
    · rw [show (2 * c + 1 + 1) / 2 = c + 1 by omega]
      push_cast
      have : (0 : ℚ) ≤ c := by positivity
      nlinarith

/-- Summing from left to right, with correctly rounded square roots, meets the assumptions. -/
theorem exists_isFloat64 : ∃ sqrt, IsFloat64 sqrt seqSum64 seqDot64 := by
  choose! sqrt hsqrt using exists_sqrtTo
  exact ⟨sqrt, hsqrt, seqSum64_sumsTo, seqDot64_dotsTo⟩

end Dcor

/-
The partial statistics in `float64`: degenerate cases.
-/
import Verif.Model.RoundingTests
import Verif.Proofs.RoundingEnergy
import Verif.Proofs.FloatTests
import Verif.Props.Float

namespace Dcor

open Dcor.Props

variable {sqrt : ℚ → ℚ} {sum : List ℚ → ℚ} {dot : List (ℚ × ℚ) → ℚ} {n p q r : ℕ}

local notation "B" => binary64 sqrt sum dot

/-- A sum of zeros is zero, in any order. -/
theorem SumsTo.zeros {l : List ℚ} {s : ℚ} (h : SumsTo l s) (hl : ∀ a ∈ l, a = 0) : s = 0 := by
  have e : l = (List.replicate l.length 0).map fun k : ℕ => (k : ℚ) := by
    rw [List.map_replicate, Nat.cast_zero]
    exact List.eq_replicate_iff.2 ⟨rfl, hl⟩
  have := h.nat _ e (by simp)
  simpa using this

/-- A sum of nonnegative numbers is zero only if all of them are. -/
theorem SumsTo.eq_zero {l : List ℚ} {s : ℚ} (h : SumsTo l s) :
    (∀ a ∈ l, 0 ≤ a) → 0 ≤ s ∧ (s = 0 → ∀ a ∈ l, a = 0) := by
  induction h with
  | nil => intro _; exact ⟨le_rfl, fun _ a ha => by simp at ha⟩
  | single a =>
    intro hl
    refine ⟨hl a (by simp), fun e b hb => ?_⟩
    rw [List.mem_singleton] at hb
    rw [hb, e]
  | add _ _ _ _ ih ih' =>
    intro hl
    obtain ⟨p1, z1⟩ := ih fun a ha => hl a (List.mem_append_left _ ha)
    obtain ⟨p2, z2⟩ := ih' fun a ha => hl a (List.mem_append_right _ ha)
    refine ⟨round64_nonneg (by linarith), fun e a ha => ?_⟩
    rw [round64_eq_zero] at e
    rcases List.mem_append.1 ha with ha | ha
    · exact z1 (by linarith) a ha
    · exact z2 (by linarith) a ha
  | perm _ hp ih =>
    intro hl
    obtain ⟨p1, z1⟩ := ih fun a ha => hl a (hp.mem_iff.1 ha)
    exact ⟨p1, fun e a ha => z1 e a (hp.mem_iff.2 ha)⟩

theorem ofInt_one : Arith.ofInt B 1 = 1 := by
  show round64 ((1 : ℤ) : ℚ) = 1
  have := round64_int 1 (by norm_num)
  rwa [Int.cast_one] at this ⊢

theorem ofInt_neg_one : Arith.ofInt B (-1) = -1 := by
  show round64 ((-1 : ℤ) : ℚ) = -1
  have := round64_int (-1) (by norm_num)
  rw [this]
  norm_num

theorem ofInt_zero' : Arith.ofInt B 0 = 0 := by
  show round64 ((0 : ℤ) : ℚ) = 0
  rw [Int.cast_zero, round64_zero]

/-- Entries of a `U`-centred matrix are `float64` numbers. -/
theorem uCentered_float (a : Fin n → Fin n → ℚ) (i j : Fin n) :
    round64 (Arith.uCentered B a i j) = Arith.uCentered B a i j := by
  unfold Arith.uCentered
  dsimp only
  split_ifs
  · rw [ofInt_zero', round64_zero]
  · exact round64_idem _

theorem uProduct_float (a b : Fin n → Fin n → ℚ) : round64 (Arith.uProduct B a b) = Arith.uProduct B a b :=
  round64_idem _

theorem mem_products {a b : Fin n → Fin n → ℚ} {t : ℚ} (ht : t ∈ Arith.products B a b) :
    ∃ i j, t = round64 (a i j * b i j) := by
  obtain ⟨i, j, e⟩ := (mem_flatAll _ _).1 ht
  exact ⟨i, j, e.symm⟩

theorem uProduct_zero (h : IsFloat64 sqrt sum dot) {a b : Fin n → Fin n → ℚ} (hz : ∀ i j, a i j = 0 ∨ b i j = 0) :
    Arith.uProduct B a b = 0 := by
  show round64 (sum (Arith.products B a b) / _) = 0
  rw [(h.sum _).zeros, zero_div, round64_zero]
  intro t ht
  obtain ⟨i, j, rfl⟩ := mem_products ht
  rcases hz i j with e | e <;> rw [e] <;> simp [round64_zero]

theorem uProduct_comm (a b : Fin n → Fin n → ℚ) : Arith.uProduct B a b = Arith.uProduct B b a := by
  unfold Arith.uProduct Arith.products
  congr 3
  funext i j
  show round64 _ = round64 _
  rw [mul_comm]

theorem uProduct_self_nonneg (h : IsFloat64 sqrt sum dot) (hn : 3 < n) (a : Fin n → Fin n → ℚ) :
    0 ≤ Arith.uProduct B a a ∧ (Arith.uProduct B a a = 0 → ∀ i j, a i j = 0) := by
  have hN : (0 : ℚ) < round64 ((((n : ℤ) * ((n : ℤ) - 3) : ℤ)) : ℚ) := by
    apply round64_pos
    have : (0 : ℤ) < (n : ℤ) * ((n : ℤ) - 3) := mul_pos (by omega) (by omega)
    exact_mod_cast this
  obtain ⟨p1, z1⟩ := (h.sum (Arith.products B a a)).eq_zero (by
    intro t ht
    obtain ⟨i, j, rfl⟩ := mem_products ht
    exact round64_nonneg (mul_self_nonneg _))
  have e : Arith.uProduct B a a = round64 (sum (Arith.products B a a) / round64 ((((n : ℤ) * ((n : ℤ) - 3) : ℤ)) : ℚ)) := rfl
  rw [e]
  refine ⟨round64_nonneg (div_nonneg p1 hN.le), fun h0 i j => ?_⟩
  rw [round64_eq_zero, div_eq_zero_iff] at h0
  have hs := h0.resolve_right hN.ne'
  have := z1 hs (round64 (a i j * a i j)) ((mem_flatAll _ _).2 ⟨i, j, rfl⟩)
  rw [round64_eq_zero] at this
  exact mul_self_eq_zero.1 this

/-- The complementary projection of a matrix of `float64` numbers with respect to itself is zero. -/
theorem complementary_self (h : IsFloat64 sqrt sum dot) (hn : 3 < n) {c : Fin n → Fin n → ℚ}
    (hc : ∀ i j, round64 (c i j) = c i j) (i j : Fin n) : Arith.uComplementaryProjection B c c i j = 0 := by
  obtain ⟨_, hz⟩ := uProduct_self_nonneg h hn c
  unfold Arith.uComplementaryProjection Arith.uProjection
  by_cases h0 : Arith.uProduct B c c = 0
  · rw [if_pos ((eqZero_iff _).2 h0), ofInt_zero', hz h0]
    show round64 (0 - 0) = 0
    rw [sub_zero, round64_zero]
  · rw [if_neg (fun e => h0 ((eqZero_iff _).1 e))]
    show round64 (c i j - round64 (round64 (Arith.uProduct B c c / Arith.uProduct B c c) * c i j)) = 0
    rw [div_self h0]
    have e1 : round64 1 = 1 := by
      have := round64_int 1 (by norm_num)
      rwa [Int.cast_one] at this
    rw [e1, one_mul, hc, sub_self, round64_zero]

/-- The complementary projection with respect to zero changes nothing. -/
theorem complementary_zero (h : IsFloat64 sqrt sum dot) {a c : Fin n → Fin n → ℚ} (ha : ∀ i j, round64 (a i j) = a i j)
    (hc : ∀ i j, c i j = 0) : Arith.uComplementaryProjection B c a = a := by
  funext i j
  unfold Arith.uComplementaryProjection Arith.uProjection
  rw [if_pos ((eqZero_iff _).2 (uProduct_zero h fun i j => Or.inl (hc i j))), ofInt_zero']
  show round64 (a i j - 0) = _
  rw [sub_zero, ha]

/-- The `U`-centred distance matrix of a constant sample is zero. -/
theorem uDistanceMatrix_const (h : IsFloat64 sqrt sum dot) (c : Fin p → ℚ) (i j : Fin n) :
    Arith.uDistanceMatrix B (fun _ => c) i j = 0 := by
  have hd : ∀ i j : Fin n, Arith.euclidean B (fun _ => c) i j = 0 := by
    intro i j
    show sqrt (sum _) = 0
    rw [(h.sum _).zeros]
    · rcases h.sqrt 0 le_rfl with ⟨_, e⟩ | ⟨e, _⟩
      · exact e
      · exact absurd e (lt_irrefl _)
    · intro a ha
      obtain ⟨k, rfl⟩ := List.mem_ofFn.1 ha
      show round64 (round64 (c k - c k) * _) = 0
      rw [sub_self, round64_zero, zero_mul, round64_zero]
  have hs : ∀ i : Fin n, Arith.axisSum B (Arith.euclidean B fun _ => c) i = 0 := by
    intro i
    refine (h.sum _).zeros fun a ha => ?_
    obtain ⟨k, rfl⟩ := List.mem_ofFn.1 ha
    exact hd i k
  have ht : Arith.vsum B (Arith.axisSum B (Arith.euclidean B fun _ : Fin n => c)) = 0 := by
    refine (h.sum _).zeros fun a ha => ?_
    obtain ⟨k, rfl⟩ := List.mem_ofFn.1 ha
    exact hs k
  unfold Arith.uDistanceMatrix Arith.uCentered
  dsimp only
  split_ifs
  · exact ofInt_zero'
  · rw [hd, hs, hs, ht]
    show round64 (round64 (round64 (0 - round64 (0 / _)) - round64 (0 / _)) + round64 (0 / _)) = 0
    simp [round64_zero]

theorem clip1_zero : Arith.clip1 B 0 = 0 := by
  unfold Arith.clip1
  rw [ofInt_neg_one, ofInt_one, if_neg, if_neg]
  · show ¬ decide ((1 : ℚ) < 0) = true
    decide
  · show ¬ decide ((0 : ℚ) < -1) = true
    decide

theorem clip1_one : Arith.clip1 B 1 = 1 := by
  unfold Arith.clip1
  rw [ofInt_neg_one, ofInt_one, if_neg, if_neg]
  · show ¬ decide ((1 : ℚ) < 1) = true
    decide
  · show ¬ decide ((1 : ℚ) < -1) = true
    decide

theorem clippedCorrelation_zero (v : ℚ) : Arith.clippedCorrelation B 0 (Arith.mul B 0 v) = 0 := by
  have e0 : Arith.mul B 0 v = 0 := by
    show round64 (0 * v) = 0
    rw [zero_mul, round64_zero]
  unfold Arith.clippedCorrelation
  rw [e0, if_pos ((eqZero_iff _).2 rfl)]
  exact clip1_zero

/-- The correlation of a sample with itself in `partial_distance_correlation` is one or, if its variance is zero, zero. -/
theorem clippedCorrelation_self (h : IsFloat64 sqrt sum dot) {v : ℚ} (hv : round64 v = v) (h0 : 0 ≤ v) :
    Arith.clippedCorrelation B v (Arith.mul B v v) = if v = 0 then 0 else 1 := by
  have hd := denominator_self h hv
  have habs : Arith.abs B (Arith.mul B v v) = Arith.mul B v v := by
    show |round64 (v * v)| = round64 (v * v)
    exact abs_of_nonneg (round64_nonneg (mul_self_nonneg v))
  rw [habs, abs_of_nonneg h0] at hd
  unfold Arith.clippedCorrelation
  split_ifs with h1 h2 h2
  · rw [(eqZero_iff _).1 h1]
    exact clip1_zero
  · exact absurd ((eqZero_iff _).1 h1) (by
      show round64 (v * v) ≠ 0
      rw [Ne, round64_eq_zero]
      exact mul_self_ne_zero.2 h2)
  · exact absurd ((eqZero_iff _).2 (show round64 (v * v) = 0 by rw [h2, mul_zero, round64_zero])) h1
  · rw [hd]
    show Arith.clip1 B (round64 (v / v)) = 1
    have e1 : round64 1 = 1 := by
      have := round64_int 1 (by norm_num)
      rwa [Int.cast_one] at this
    rw [div_self h2, e1]
    exact clip1_one

/-- If one of the two correlations with `z` is one, the partial distance correlation is zero. -/
theorem partialFromCorrelations_one (h : IsFloat64 sqrt sum dot) (rxy ryz : ℚ) :
    Arith.partialFromCorrelations B rxy 1 ryz = 0 ∧ Arith.partialFromCorrelations B rxy ryz 1 = 0 := by
  have e1 : round64 1 = 1 := by
    have := round64_int 1 (by norm_num)
    rwa [Int.cast_one] at this
  have hs : Arith.sqrtClip B (Arith.sub B (Arith.ofInt B 1) (Arith.mul B 1 1)) = 0 := by
    rw [ofInt_one]
    show Arith.sqrtClip B (round64 (1 - round64 (1 * 1))) = 0
    rw [mul_one, e1, sub_self, round64_zero]
    exact round_clip_zero h
  unfold Arith.partialFromCorrelations
  dsimp only
  rw [hs]
  constructor
  · rw [if_pos]
    · show round64 (0 * _) = 0
      rw [zero_mul, round64_zero]
    · rw [eqZero_iff]
      show round64 (0 * _) = 0
      rw [zero_mul, round64_zero]
  · rw [if_pos]
    · show round64 (_ * 0) = 0
      rw [mul_zero, round64_zero]
    · rw [eqZero_iff]
      show round64 (_ * 0) = 0
      rw [mul_zero, round64_zero]

/-- If the correlation of `x` and `y` and one of those with `z` are zero, so is the partial distance correlation. -/
theorem partialFromCorrelations_zero (t : ℚ) :
    Arith.partialFromCorrelations B 0 0 t = 0 ∧ Arith.partialFromCorrelations B 0 t 0 = 0 := by
  unfold Arith.partialFromCorrelations
  dsimp only
  constructor
  · split_ifs with hz
    · exact (eqZero_iff _).1 hz
    · show round64 (round64 (0 - round64 (0 * t)) / _) = 0
      simp [round64_zero]
  · split_ifs with hz
    · exact (eqZero_iff _).1 hz
    · show round64 (round64 (0 - round64 (t * 0)) / _) = 0
      simp [round64_zero]

theorem clip1_abs (a : ℚ) : |Arith.clip1 B a| ≤ 1 := by
  unfold Arith.clip1
  rw [ofInt_neg_one, ofInt_one]
  split_ifs with h1 h2
  · norm_num
  · norm_num
  · have h1' : ¬ a < -1 := fun hh => h1 (decide_eq_true hh)
    have h2' : ¬ 1 < a := fun hh => h2 (decide_eq_true hh)
    exact abs_le.2 ⟨not_lt.1 h1', not_lt.1 h2'⟩

/-- If `x` and `y` have correlation one and the same correlation with `z`, the partial distance correlation is zero or
within `2 ^ -50` of one. -/
theorem partialFromCorrelations_same (h : IsFloat64 sqrt sum dot) {r : ℚ} (hr : |r| ≤ 1) :
    Arith.partialFromCorrelations B 1 r r = 0 ∨ |Arith.partialFromCorrelations B 1 r r - 1| ≤ 1 / 2 ^ 50 := by
  unfold Arith.partialFromCorrelations
  dsimp only
  rw [ofInt_one]
  obtain ⟨w, hw⟩ : ∃ w, w = round64 (1 - round64 (r * r)) := ⟨_, rfl⟩
  have hsub : Arith.sub B 1 (Arith.mul B r r) = w := hw.symm
  rw [hsub]
  have hr2 : |round64 (r * r)| ≤ 2 ^ (0 : ℤ) := round64_le_pow (by
    rw [zpow_zero, abs_mul]
    exact mul_le_one₀ hr (abs_nonneg _) hr)
  rw [zpow_zero] at hr2
  have hw0 : 0 ≤ w := by
    rw [hw]
    exact round64_nonneg (by linarith [(abs_le.1 hr2).2])
  have hclip : Arith.sqrtClip B w = sqrt w := by
    unfold Arith.sqrtClip
    rw [if_neg]
    · rfl
    · rw [ofInt_zero']
      show ¬ decide (w < 0) = true
      simpa using hw0
  rw [hclip]
  split_ifs with hz
  · exact Or.inl ((eqZero_iff _).1 hz)
  · right
    have hz' : round64 (sqrt w * sqrt w) ≠ 0 := fun hh => hz ((eqZero_iff _).2 hh)
    have hs := (Near.refl (a := (w : ℝ)) (by exact_mod_cast hw0)).sqrt (j := 0) (by norm_num) (h.sqrt w hw0)
    have hd : Near 3 (w : ℝ) (round64 (sqrt w * sqrt w) : ℚ) := by
      have := hs.mul hs
      rw [Real.mul_self_sqrt (by exact_mod_cast hw0)] at this
      exact Near.round (by push_cast; exact this)
    obtain ⟨t, ht⟩ : ∃ t, t = round64 (sqrt w * sqrt w) := ⟨_, rfl⟩
    rw [← ht] at hd hz'
    have hdiv : Arith.div B w (Arith.mul B (sqrt w) (sqrt w)) = round64 (w / t) := by rw [ht]; rfl
    rw [hdiv]
    have htq : (0 : ℚ) ≤ t := by exact_mod_cast hd.nonneg'
    have htp : (0 : ℚ) < t := lt_of_le_of_ne htq (Ne.symm hz')
    have lo : (1 - 1 / 2 ^ 53 : ℚ) ^ 3 * w ≤ t := by
      have := hd.lower
      unfold uRound at this
      refine (Rat.cast_le (K := ℝ)).1 ?_
      push_cast
      exact this
    have up : t ≤ (1 + 1 / 2 ^ 53 : ℚ) ^ 3 * w := by
      have := hd.upper
      unfold uRound at this
      refine (Rat.cast_le (K := ℝ)).1 ?_
      push_cast
      exact this
    have herr := abs_le.1 (round64_err (w / t))
    have hq0 : 0 ≤ w / t := div_nonneg hw0 htq
    rw [abs_of_nonneg hq0] at herr
    have hlo : w / t ≤ 1 + 25 / 2 ^ 56 := by
      rw [div_le_iff₀ htp]
      nlinarith [lo]
    have hup : 1 - 25 / 2 ^ 56 ≤ w / t := by
      rw [le_div_iff₀ htp]
      nlinarith [up]
    rw [abs_le]
    constructor <;> linarith [herr.1, herr.2]

end Dcor

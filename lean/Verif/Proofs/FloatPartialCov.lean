/-
Errors of the projections and of the partial distance covariance in `float64`.
-/
import Verif.Proofs.ErrorReal
import Verif.Proofs.FloatPartialCorr
import Verif.Proofs.Partial

namespace Dcor

variable {sqrt : ℚ → ℚ} {sum : List ℚ → ℚ} {dot : List (ℚ × ℚ) → ℚ} {n : ℕ}

local notation "B" => binary64 sqrt sum dot

/-- A quotient of size at most `S` whose denominator is known with an error of at most half of it. -/
theorem ErrR.quotient {k l K : ℕ} {m M q d S : ℝ} {r s : ℚ} (hr : ErrR k m q r) (hs : ErrR l M d s) (hd : 0 < d)
    (hS : |q / d| ≤ S) (hk : k ≤ K) (hl : l ≤ K) (hsmall : ((1 + uRound) ^ l - 1) * M ≤ d / 2) :
    ErrR (K + 1) (2 * (m + S * M) / d) (q / d) (round64 (r / s)) := by
  refine ErrR.round ?_
  have m0 := hr.pos
  have M0 := hs.pos
  have S0 : 0 ≤ S := (abs_nonneg _).trans hS
  have dM : d ≤ M := (le_abs_self d).trans hs.size
  have s2 : d / 2 ≤ (s : ℝ) := by linarith [(abs_le.1 (hs.err.trans hsmall)).1]
  have s0 : 0 < (s : ℝ) := by linarith
  obtain ⟨g, hg⟩ : ∃ g, g = (1 + uRound) ^ K - 1 := ⟨_, rfl⟩
  have g0 : 0 ≤ g := by rw [hg]; linarith [one_le_up K]
  have e1 : |(r : ℝ) - q| ≤ g * m := by
    refine hr.err.trans (mul_le_mul_of_nonneg_right ?_ m0)
    rw [hg]; linarith [up_mono hk]
  have e2 : |(s : ℝ) - d| ≤ g * M := by
    refine hs.err.trans (mul_le_mul_of_nonneg_right ?_ M0)
    rw [hg]; linarith [up_mono hl]
  constructor
  · refine hS.trans ?_
    rw [le_div_iff₀ hd]
    nlinarith [mul_le_mul_of_nonneg_left dM S0, mul_nonneg S0 M0]
  · rw [← hg]
    push_cast
    have e : (r : ℝ) / s - q / d = ((r - q) - q / d * (s - d)) / s := by
      field_simp
      ring
    rw [e, abs_div, abs_of_pos s0, div_le_iff₀ s0]
    have h1 : |((r : ℝ) - q) - q / d * (s - d)| ≤ g * m + S * (g * M) := by
      refine (abs_sub _ _).trans ?_
      rw [abs_mul]
      exact add_le_add e1 (mul_le_mul hS e2 (abs_nonneg _) S0)
    refine h1.trans ?_
    have h2 : g * (2 * (m + S * M) / d) * s = g * (m + S * M) * (2 * s / d) := by ring
    have h3 : 1 ≤ 2 * s / d := by rw [le_div_iff₀ hd]; linarith
    have h4 : 0 ≤ g * (m + S * M) := by positivity
    rw [h2]
    nlinarith [mul_le_mul_of_nonneg_left h3 h4]

/-- Cauchy's inequality for the inner product of matrices with zero diagonal. -/
theorem uInner_cauchy (hn : 3 < n) {P Q : Fin n → Fin n → ℝ} (hP : ∀ i, P i i = 0) (hQ : ∀ i, Q i i = 0) :
    |Spec.uInner P Q| ≤ Real.sqrt (Spec.uInner P P) * Real.sqrt (Spec.uInner Q Q) := by
  have e1 := Spec.uInner_eq_uIp (a := P) (b := Q) fun i => by rw [hP, zero_mul]
  have e2 := Spec.uInner_eq_uIp (a := P) (b := P) fun i => by rw [hP, zero_mul]
  have e3 := Spec.uInner_eq_uIp (a := Q) (b := Q) fun i => by rw [hQ, zero_mul]
  rw [e1, e2, e3, ← Real.sqrt_mul (uIp_self_nonneg hn P)]
  exact Real.abs_le_sqrt (uIp_cauchy hn P Q)

/-- The residual of a matrix with entries of at most `6 * A` with respect to one with entries of at most `6 * C`, where
`C ≤ κ * √⟨c, c⟩`: bounds for the entries and for their errors. -/
theorem residual_close (h : IsFloat64 sqrt sum dot) (hn : 3 < n) {l J : ℕ} {a c : Fin n → Fin n → ℚ} {P Q : Fin n → Fin n → ℝ}
    {A C κ : ℝ} (ha : ∀ i j, ErrR l (if i = j then 0 else 6 * A) (P i j) (a i j))
    (hc : ∀ i j, ErrR l (if i = j then 0 else 6 * C) (Q i j) (c i j)) (hv : 0 < Spec.uInner Q Q)
    (hκ : C ≤ κ * Real.sqrt (Spec.uInner Q Q)) (hJ : 3 * l + n ^ 2 + 7 ≤ J)
    (hsmall : ((1 + uRound) ^ J - 1) * (216 * κ ^ 2) ≤ 1) (i j : Fin n) :
    |Spec.uResidual Q P i j| ≤ (if i = j then 0 else 6 * A * (1 + 11 * κ)) ∧
    |((Arith.uComplementaryProjection B c a i j : ℚ) : ℝ) - Spec.uResidual Q P i j|
      ≤ (if i = j then 0 else ((1 + uRound) ^ J - 1) * (1944 * A * κ ^ 2 * (1 + 11 * κ))) := by
  obtain ⟨w, hw⟩ : ∃ w, w = Real.sqrt (Spec.uInner Q Q) := ⟨_, rfl⟩
  have w0 : 0 < w := by rw [hw]; exact Real.sqrt_pos.2 hv
  have hww : Spec.uInner Q Q = w ^ 2 := by rw [hw, Real.sq_sqrt hv.le]
  rw [← hw] at hκ
  have h01 : (⟨0, by omega⟩ : Fin n) ≠ ⟨1, by omega⟩ := by simp
  have A0 : 0 ≤ A := by
    have := (ha ⟨0, by omega⟩ ⟨1, by omega⟩).pos
    rw [if_neg h01] at this
    linarith
  have C0 : 0 ≤ C := by
    have := (hc ⟨0, by omega⟩ ⟨1, by omega⟩).pos
    rw [if_neg h01] at this
    linarith
  have hP : ∀ i, P i i = 0 := fun i => by
    have := (ha i i).size
    rw [if_pos rfl] at this
    exact abs_nonpos_iff.1 this
  have hQ : ∀ i, Q i i = 0 := fun i => by
    have := (hc i i).size
    rw [if_pos rfl] at this
    exact abs_nonpos_iff.1 this
  have hnum := ErrR.uProduct h hn ha hc
  have hden := ErrR.uProduct h hn hc hc
  have haa := (ErrR.uProduct h hn ha ha).size
  rw [hww] at hden
  have κ0 : 0 ≤ κ := by
    by_contra hneg
    have : κ * w < 0 := mul_neg_of_neg_of_pos (not_le.1 hneg) w0
    linarith
  have hC2 : C ^ 2 ≤ κ ^ 2 * w ^ 2 := by
    rw [← mul_pow]
    exact pow_le_pow_left₀ C0 hκ 2
  have κ1 : 1 ≤ 108 * κ ^ 2 := by
    have h1 : w ^ 2 ≤ 3 * (6 * C * (6 * C)) := (le_abs_self _).trans hden.size
    have h2 : 1 * w ^ 2 ≤ (108 * κ ^ 2) * w ^ 2 := by nlinarith
    exact le_of_mul_le_mul_right h2 (by positivity)
  obtain ⟨g, hg⟩ : ∃ g, g = (1 + uRound) ^ J - 1 := ⟨_, rfl⟩
  have g0 : 0 ≤ g := by rw [hg]; linarith [one_le_up J]
  rw [← hg] at hsmall ⊢
  have hdsmall : ((1 + uRound) ^ (l + l + n ^ 2 + 4) - 1) * (3 * (6 * C * (6 * C))) ≤ w ^ 2 / 2 := by
    have h1 : (1 + uRound) ^ (l + l + n ^ 2 + 4) - 1 ≤ g := by
      rw [hg]
      linarith [up_mono (show l + l + n ^ 2 + 4 ≤ J by omega)]
    have h2 : ((1 + uRound) ^ (l + l + n ^ 2 + 4) - 1) * (3 * (6 * C * (6 * C))) ≤ g * (108 * (κ ^ 2 * w ^ 2)) :=
      mul_le_mul h1 (by nlinarith) (by positivity) g0
    nlinarith [mul_le_mul_of_nonneg_right hsmall (show 0 ≤ w ^ 2 by positivity)]
  have hS : |Spec.uInner P Q / w ^ 2| ≤ 11 * A / w := by
    have hcs := uInner_cauchy hn hP hQ
    rw [← hw] at hcs
    have h1 : Real.sqrt (Spec.uInner P P) ≤ 11 * A := by
      apply Real.sqrt_le_iff.2
      refine ⟨by positivity, ?_⟩
      have := (le_abs_self _).trans haa
      nlinarith [sq_nonneg A]
    rw [abs_div, abs_of_pos (show 0 < w ^ 2 by positivity), div_le_div_iff₀ (by positivity) w0]
    have h2 : |Spec.uInner P Q| ≤ 11 * A * w := hcs.trans (mul_le_mul_of_nonneg_right h1 w0.le)
    nlinarith [mul_le_mul_of_nonneg_right h2 w0.le]
  have hq := hnum.quotient hden (by positivity) hS (K := l + l + n ^ 2 + 4) le_rfl le_rfl hdsmall
  have hsub := (ha i j).sub (hq.mul (hc i j))
  have s0 : (Arith.uProduct B c c : ℚ) ≠ 0 := by
    have s2 : w ^ 2 / 2 ≤ ((Arith.uProduct B c c : ℚ) : ℝ) := by linarith [(abs_le.1 (hden.err.trans hdsmall)).1]
    intro e0
    rw [e0, Rat.cast_zero] at s2
    nlinarith [sq_nonneg w, mul_pos w0 w0]
  have er : Spec.uResidual Q P i j = P i j - Spec.uInner P Q / w ^ 2 * Q i j := by
    unfold Spec.uResidual
    rw [if_neg hv.ne', hww]
  have ef : Arith.uComplementaryProjection B c a i j
      = round64 (a i j - round64 (round64 (Arith.uProduct B a c / Arith.uProduct B c c) * c i j)) := by
    unfold Arith.uComplementaryProjection Arith.uProjection
    rw [if_neg (eqZero_binary64 s0)]
    rfl
  have hCw : C / w ≤ κ := by rw [div_le_iff₀ w0]; exact hκ
  have hCw0 : 0 ≤ C / w := by positivity
  constructor
  · rw [er]
    refine (abs_sub _ _).trans ?_
    rw [abs_mul]
    refine (add_le_add (ha i j).size (mul_le_mul hS (hc i j).size (abs_nonneg _) (by positivity))).trans ?_
    split_ifs with hij
    · simp
    · have e : 6 * A + 11 * A / w * (6 * C) = 6 * A * (1 + 11 * (C / w)) := by field_simp
      rw [e]
      exact mul_le_mul_of_nonneg_left (by linarith) (by positivity)
  · rw [er, ef]
    refine (hsub.mono (l := J) (by omega) le_rfl).err.trans ?_
    rw [← hg]
    split_ifs with hij
    · simp
    · refine mul_le_mul_of_nonneg_left ?_ g0
      have e : 6 * A + 2 * (3 * (6 * A * (6 * C)) + 11 * A / w * (3 * (6 * C * (6 * C)))) / w ^ 2 * (6 * C)
          = 6 * A * (1 + 216 * ((C / w) ^ 2 * (1 + 11 * (C / w)))) := by
        field_simp
        ring
      rw [e]
      have h1 : (C / w) ^ 2 * (1 + 11 * (C / w)) ≤ κ ^ 2 * (1 + 11 * κ) :=
        mul_le_mul (pow_le_pow_left₀ hCw0 hCw 2) (by linarith) (by positivity) (by positivity)
      have h2 : 1 ≤ 108 * (κ ^ 2 * (1 + 11 * κ)) := by nlinarith [mul_nonneg (sq_nonneg κ) κ0]
      have h3 : 6 * A * (1 + 216 * ((C / w) ^ 2 * (1 + 11 * (C / w)))) ≤ 6 * A * (324 * (κ ^ 2 * (1 + 11 * κ))) :=
        mul_le_mul_of_nonneg_left (by linarith) (by positivity)
      linarith

/-- An inner product of matrices with zero diagonal whose entries are known up to an error. -/
theorem uProduct_close (h : IsFloat64 sqrt sum dot) (hn : 3 < n) {a b : Fin n → Fin n → ℚ} {P Q : Fin n → Fin n → ℝ}
    {m e m' e' : ℝ} (hP : ∀ i j, |P i j| ≤ if i = j then 0 else m) (hQ : ∀ i j, |Q i j| ≤ if i = j then 0 else m')
    (ha : ∀ i j, |(a i j : ℝ) - P i j| ≤ if i = j then 0 else e) (hb : ∀ i j, |(b i j : ℝ) - Q i j| ≤ if i = j then 0 else e') :
    |((Arith.uProduct B a b : ℚ) : ℝ) - Spec.uInner P Q|
      ≤ ((1 + uRound) ^ (n ^ 2 + 4) - 1) * (3 * ((m + e) * (m' + e'))) + 3 * (e * (m' + e') + m * e') := by
  have hn4 : (4 : ℝ) ≤ n := by exact_mod_cast hn
  have h01 : (⟨0, by omega⟩ : Fin n) ≠ ⟨1, by omega⟩ := by simp
  have pos : ∀ {f : Fin n → Fin n → ℝ} {t : ℝ}, (∀ i j, |f i j| ≤ if i = j then 0 else t) → 0 ≤ t := by
    intro f t hf
    have := (abs_nonneg _).trans (hf ⟨0, by omega⟩ ⟨1, by omega⟩)
    rwa [if_neg h01] at this
  have m0 := pos hP
  have m0' := pos hQ
  have e0 := pos (f := fun i j => (a i j : ℝ) - P i j) ha
  have e0' := pos (f := fun i j => (b i j : ℝ) - Q i j) hb
  have size : ∀ {f : Fin n → Fin n → ℚ} {R : Fin n → Fin n → ℝ} {s t : ℝ}, (∀ i j, |R i j| ≤ if i = j then 0 else s) →
      (∀ i j, |(f i j : ℝ) - R i j| ≤ if i = j then 0 else t) → ∀ i j, |(f i j : ℝ)| ≤ if i = j then 0 else s + t := by
    intro f R s t hR hf i j
    have := abs_add_le ((f i j : ℝ) - R i j) (R i j)
    rw [sub_add_cancel] at this
    have h1 := hR i j
    have h2 := hf i j
    split_ifs at h1 h2 ⊢ <;> linarith
  have key := ErrR.uProduct h hn (fun i j => ErrR.refl (size hP ha i j)) (fun i j => ErrR.refl (size hQ hb i j))
  have h1 := key.err
  rw [show 0 + 0 + n ^ 2 + 4 = n ^ 2 + 4 by ring] at h1
  have h2 : |Spec.uInner (fun i j => (a i j : ℝ)) (fun i j => (b i j : ℝ)) - Spec.uInner P Q|
      ≤ 3 * (e * (m' + e') + m * e') := by
    unfold Spec.uInner
    rw [← sub_div, abs_div, ← Finset.sum_sub_distrib]
    simp only [← Finset.sum_sub_distrib]
    have h3 : (0 : ℝ) < n - 3 := by linarith
    have hpos : (0 : ℝ) < n * (n - 3) := mul_pos (by linarith) h3
    rw [abs_of_pos hpos, div_le_iff₀ hpos]
    obtain ⟨t, ht⟩ : ∃ t, t = e * (m' + e') + m * e' := ⟨_, rfl⟩
    have t0 : 0 ≤ t := by rw [ht]; positivity
    have entry : ∀ i j, j ≠ i → |(a i j : ℝ) * b i j - P i j * Q i j| ≤ t := by
      intro i j hij
      have a1 := ha i j
      have b1 := hb i j
      have p1 := hP i j
      have b2 := size hQ hb i j
      rw [if_neg hij.symm] at a1 b1 p1 b2
      have e : (a i j : ℝ) * b i j - P i j * Q i j = (a i j - P i j) * b i j + P i j * (b i j - Q i j) := by ring
      rw [e, ht]
      refine (abs_add_le _ _).trans ?_
      rw [abs_mul, abs_mul]
      exact add_le_add (mul_le_mul a1 b2 (abs_nonneg _) e0) (mul_le_mul p1 b1 (abs_nonneg _) m0)
    rw [← ht]
    calc _ ≤ ∑ i : Fin n, ∑ j ∈ Finset.univ.filter (· ≠ i), |(a i j : ℝ) * b i j - P i j * Q i j| :=
          (Finset.abs_sum_le_sum_abs _ _).trans (Finset.sum_le_sum fun i _ => Finset.abs_sum_le_sum_abs _ _)
      _ ≤ ∑ i : Fin n, ∑ j ∈ Finset.univ.filter (· ≠ i), t := by
          refine Finset.sum_le_sum fun i _ => Finset.sum_le_sum fun j hj => entry i j ?_
          simpa using hj
      _ = n * ((n - 1) * t) := by
          have : ∀ i : Fin n, ∑ j ∈ Finset.univ.filter (· ≠ i), t = (n - 1) * t := by
            intro i
            rw [Finset.sum_const, Finset.filter_ne', Finset.card_erase_of_mem (Finset.mem_univ i), Finset.card_univ,
              Fintype.card_fin, nsmul_eq_mul, Nat.cast_sub (by omega), Nat.cast_one]
          rw [Finset.sum_congr rfl fun i _ => this i, Finset.sum_const, Finset.card_univ, Fintype.card_fin, nsmul_eq_mul]
      _ ≤ 3 * t * (n * (n - 3)) := by
          nlinarith [mul_nonneg (mul_nonneg (show (0 : ℝ) ≤ n by linarith) t0) (show (0 : ℝ) ≤ n - 4 by linarith)]
  calc _ = |((Arith.uProduct B a b : ℚ) - Spec.uInner (fun i j => (a i j : ℝ)) (fun i j => (b i j : ℝ)))
        + (Spec.uInner (fun i j => (a i j : ℝ)) (fun i j => (b i j : ℝ)) - Spec.uInner P Q)| := by ring_nf
    _ ≤ _ := abs_add_le _ _
    _ ≤ _ := add_le_add h1 h2

/-- Size of an inner product of matrices with zero diagonal. -/
theorem uInner_le (hn : 3 < n) {P Q : Fin n → Fin n → ℝ} {m m' : ℝ} (hP : ∀ i j, |P i j| ≤ if i = j then 0 else m)
    (hQ : ∀ i j, |Q i j| ≤ if i = j then 0 else m') : |Spec.uInner P Q| ≤ 3 * (m * m') := by
  have hn4 : (4 : ℝ) ≤ n := by exact_mod_cast hn
  have h01 : (⟨0, by omega⟩ : Fin n) ≠ ⟨1, by omega⟩ := by simp
  have m0 : 0 ≤ m := by
    have := (abs_nonneg _).trans (hP ⟨0, by omega⟩ ⟨1, by omega⟩)
    rwa [if_neg h01] at this
  have m0' : 0 ≤ m' := by
    have := (abs_nonneg _).trans (hQ ⟨0, by omega⟩ ⟨1, by omega⟩)
    rwa [if_neg h01] at this
  have t0 : 0 ≤ m * m' := mul_nonneg m0 m0'
  unfold Spec.uInner
  have hpos : (0 : ℝ) < n * (n - 3) := mul_pos (by linarith) (by linarith)
  rw [abs_div, abs_of_pos hpos, div_le_iff₀ hpos]
  calc _ ≤ ∑ i : Fin n, ∑ j ∈ Finset.univ.filter (· ≠ i), |P i j * Q i j| :=
        (Finset.abs_sum_le_sum_abs _ _).trans (Finset.sum_le_sum fun i _ => Finset.abs_sum_le_sum_abs _ _)
    _ ≤ ∑ i : Fin n, ∑ j ∈ Finset.univ.filter (· ≠ i), m * m' := by
        refine Finset.sum_le_sum fun i _ => Finset.sum_le_sum fun j hj => ?_
        have hij : i ≠ j := by
          have : j ≠ i := by simpa using hj
          exact this.symm
        have p1 := hP i j
        have q1 := hQ i j
        rw [if_neg hij] at p1 q1
        rw [abs_mul]
        exact mul_le_mul p1 q1 (abs_nonneg _) m0
    _ = n * ((n - 1) * (m * m')) := by
        have : ∀ i : Fin n, ∑ j ∈ Finset.univ.filter (· ≠ i), m * m' = (n - 1) * (m * m') := by
          intro i
          rw [Finset.sum_const, Finset.filter_ne', Finset.card_erase_of_mem (Finset.mem_univ i), Finset.card_univ,
            Fintype.card_fin, nsmul_eq_mul, Nat.cast_sub (by omega), Nat.cast_one]
        rw [Finset.sum_congr rfl fun i _ => this i, Finset.sum_const, Finset.card_univ, Fintype.card_fin, nsmul_eq_mul]
    _ ≤ 3 * (m * m') * (n * (n - 3)) := by
        nlinarith [mul_nonneg (mul_nonneg (show (0 : ℝ) ≤ n by linarith) t0) (show (0 : ℝ) ≤ n - 4 by linarith)]

end Dcor

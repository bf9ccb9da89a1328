/-
The naive method in `float64` for two observations of each sample.
-/
import Verif.Proofs.FloatWitness
import Verif.Proofs.FloatCorr
import Mathlib.Tactic.IntervalCases

namespace Dcor

variable {sqrt : ℚ → ℚ} {sum : List ℚ → ℚ} {dot : List (ℚ × ℚ) → ℚ}

/-- A sum of zeros and at most two copies of a number, in any order. -/
theorem SumsTo.two {l : List ℚ} {r d : ℚ} (h : SumsTo l r) (hd : d ≠ 0) (hf : round64 d = d) (hf2 : round64 (2 * d) = 2 * d) :
    (∀ a ∈ l, a = 0 ∨ a = d) → l.count d ≤ 2 → r = l.count d * d := by
  have hk : ∀ k : ℕ, k ≤ 2 → round64 (k * d) = k * d := by
    intro k hk
    interval_cases k
    · simp [round64_zero]
    · simpa using hf
    · simpa using hf2
  induction h with
  | nil => intro _ _; simp
  | single a =>
    intro ha _
    rcases ha a (by simp) with rfl | rfl
    · simp [hd.symm]
    · simp
  | @add l l' a b hl hl' _ _ ih ih' =>
    intro ha hc
    rw [List.count_append] at hc ⊢
    rw [ih (fun a h => ha a (by simp [h])) (by omega), ih' (fun a h => ha a (by simp [h])) (by omega), ← add_mul,
      ← Nat.cast_add, hk _ hc]
  | perm _ hp ih =>
    intro ha hc
    rw [← hp.count_eq] at hc ⊢
    exact ih (fun a h => ha a (hp.mem_iff.1 h)) hc

/-- A scalar product with at most two terms `(d, e)` and zeros, in any order, with or without fused operations. -/
theorem DotsTo.two {l : List (ℚ × ℚ)} {r d e f : ℚ} (h : DotsTo l r) (hd : d ≠ 0) (hde : round64 (d * e) = f)
    (hf2 : round64 (2 * f) = 2 * f) (hfma : round64 (d * e + f) = 2 * f) :
    (∀ p ∈ l, p = (0, 0) ∨ p = (d, e)) → l.count (d, e) ≤ 2 → r = l.count (d, e) * f := by
  have hne : ((0 : ℚ), (0 : ℚ)) ≠ (d, e) := fun h => hd (by simpa using (congrArg Prod.fst h).symm)
  have hf : round64 f = f := by rw [← hde, round64_idem]
  have hk : ∀ k : ℕ, k ≤ 2 → round64 (k * f) = k * f := by
    intro k hk
    interval_cases k
    · simp [round64_zero]
    · simpa using hf
    · simpa using hf2
  induction h with
  | nil => intro _ _; simp
  | single a b =>
    intro ha _
    rcases ha (a, b) (by simp) with h | h
    · rw [h, List.count_singleton, if_neg (by simpa using hne)]
      obtain ⟨rfl, rfl⟩ := Prod.mk.inj h
      simp [round64_zero]
    · rw [h, List.count_singleton_self]
      obtain ⟨rfl, rfl⟩ := Prod.mk.inj h
      rw [hde]; simp
  | @fma a b l c hl _ ih =>
    intro ha hc
    rcases ha (a, b) (by simp) with h | h
    · rw [h, List.count_cons_of_ne hne] at hc ⊢
      rw [ih (fun a h => ha a (by simp [h])) hc]
      obtain ⟨rfl, rfl⟩ := Prod.mk.inj h
      rw [zero_mul, zero_add, hk _ hc]
    · rw [h, List.count_cons_self] at hc ⊢
      rw [ih (fun a h => ha a (by simp [h])) (by omega)]
      obtain ⟨rfl, rfl⟩ := Prod.mk.inj h
      have : l.count (a, b) ≤ 1 := by omega
      interval_cases l.count (a, b)
      · simp [hde]
      · rw [Nat.cast_one, one_mul, hfma]; norm_num
  | @add l l' a b hl hl' _ _ ih ih' =>
    intro ha hc
    rw [List.count_append] at hc ⊢
    rw [ih (fun a h => ha a (by simp [h])) (by omega), ih' (fun a h => ha a (by simp [h])) (by omega), ← add_mul,
      ← Nat.cast_add, hk _ hc]
  | perm _ hp ih =>
    intro ha hc
    rw [← hp.count_eq] at hc ⊢
    exact ih (fun a h => ha a (hp.mem_iff.1 h)) hc

/-- A number that is not halfway between two neighbours has one rounded square root. -/
theorem SqrtTo.eq_of {q r : ℚ} (h : SqrtTo q r) (k : ℤ) (m : ℕ) (h1 : 2 ^ 104 ≤ q * 4 ^ k) (h2 : q * 4 ^ k < 2 ^ 106)
    (h3 : (2 * (m : ℚ) - 1) ^ 2 < 4 * (q * 4 ^ k)) (h4 : 4 * (q * 4 ^ k) < (2 * (m : ℚ) + 1) ^ 2) : r = m * 2 ^ (-k) := by
  rcases h with ⟨rfl, _⟩ | ⟨hq, k', m', a1, a2, rfl, a3, a4⟩
  · norm_num at h1
  · have hk : k' = k := by
      have key : ∀ i j : ℤ, i < j → q * 4 ^ j < 2 ^ 106 → ¬ 2 ^ 104 ≤ q * 4 ^ i := by
        intro i j hij hj hi
        have : (4 : ℚ) ^ (i + 1) ≤ 4 ^ j := zpow_le_zpow_right₀ (by norm_num) (by omega)
        rw [zpow_add₀ (by norm_num), zpow_one] at this
        have h5 := mul_le_mul_of_nonneg_left this hq.le
        have : (2 : ℚ) ^ 106 = 2 ^ 104 * 4 := by norm_num
        linarith
      by_contra hne
      rcases lt_or_gt_of_ne hne with hlt | hlt
      · exact key _ _ hlt h2 a1
      · exact key _ _ hlt a2 h1
    subst hk
    have e1 : (2 * (m : ℚ) - 1) ^ 2 < (2 * (m' : ℚ) + 1) ^ 2 := lt_of_lt_of_le h3 a4
    have e2 : (2 * (m' : ℚ) - 1) ^ 2 < (2 * (m : ℚ) + 1) ^ 2 := lt_of_le_of_lt a3 h4
    have p1 : 0 ≤ (m : ℚ) := by positivity
    have p2 : 0 ≤ (m' : ℚ) := by positivity
    have f1 : (m : ℚ) < m' + 1 := by
      by_contra hcon
      push Not at hcon
      nlinarith
    have f2 : (m' : ℚ) < m + 1 := by
      by_contra hcon
      push Not at hcon
      nlinarith
    have g1 : m < m' + 1 := by exact_mod_cast f1
    have g2 : m' < m + 1 := by exact_mod_cast f2
    have : m' = m := by omega
    rw [this]

/-- The distances between two numbers zero and `d`. -/
def pairDist (d : ℚ) (i j : Fin 2) : ℚ := if i = j then 0 else d

theorem euclidean_pair (h : IsFloat64 sqrt sum dot) {d : ℚ} (hd : 0 < d) (hf : round64 d = d) :
    (binary64 sqrt sum dot).euclidean (fun i (_ : Fin 1) => (![0, d] : Fin 2 → ℚ) i) = pairDist d := by
  have hsum : ∀ a : ℚ, sum (List.ofFn fun _ : Fin 1 => a) = a := by
    intro a
    have key : ∀ {l : List ℚ} {r : ℚ}, SumsTo l r → l = [a] → r = a := by
      intro l r hs
      induction hs with
      | nil => intro e; simp at e
      | single b => intro e; simpa using e
      | add hl hl' _ _ _ _ =>
        intro e
        rcases List.append_eq_singleton_iff.1 e with ⟨e1, _⟩ | ⟨_, e2⟩
        · exact absurd e1 hl
        · exact absurd e2 hl'
      | perm _ hp ih => intro e; subst e; exact ih (List.perm_singleton.1 hp)
    exact key (h.sum _) (by simp)
  funext i j
  show sqrt (sum (List.ofFn fun _ : Fin 1 => round64 (round64 ((![0, d] : Fin 2 → ℚ) i - (![0, d] : Fin 2 → ℚ) j)
    * round64 ((![0, d] : Fin 2 → ℚ) i - (![0, d] : Fin 2 → ℚ) j)))) = _
  rw [hsum, (h.sqrt _ (round64_nonneg (mul_self_nonneg _))).round_square (round64_idem _)]
  fin_cases i <;> fin_cases j <;> simp [pairDist, round64_zero, round64_neg, hf, abs_of_pos hd]

/-- What is needed of two positive numbers and of their rounded product. -/
structure PairOk (d e f : ℚ) : Prop where
  dpos : 0 < d
  epos : 0 < e
  dfl : round64 d = d
  efl : round64 e = e
  prod : round64 (d * e) = f
  fma : round64 (d * e + f) = 2 * f

theorem round64_two_mul (q : ℚ) : round64 (2 * q) = 2 * round64 q := by
  have := round64_scale q 1
  rwa [zpow_one] at this

theorem round64_half (q : ℚ) : round64 (q / 2) = round64 q / 2 := by
  have h := round64_scale q (-1)
  rw [zpow_neg_one] at h
  rw [div_eq_inv_mul, h, div_eq_inv_mul]

theorem PairOk.ffl {d e f : ℚ} (ok : PairOk d e f) : round64 f = f := by rw [← ok.prod, round64_idem]

theorem mdot_pair (h : IsFloat64 sqrt sum dot) {d e f : ℚ} (ok : PairOk d e f) :
    (binary64 sqrt sum dot).mdot (pairDist d) (pairDist e) = 2 * f := by
  have := (h.dot ((List.finRange 2).flatMap fun i => (List.finRange 2).map fun j => (pairDist d i j, pairDist e i j))).two
    ok.dpos.ne' ok.prod (by rw [round64_two_mul, ok.ffl]) ok.fma
  have el : ((List.finRange 2).flatMap fun i => (List.finRange 2).map fun j => (pairDist d i j, pairDist e i j))
      = [(0, 0), (d, e), (d, e), (0, 0)] := by
    simp [List.finRange_succ, pairDist]
  have hne : ((0 : ℚ), (0 : ℚ)) ≠ (d, e) := fun h => ok.dpos.ne (by simpa using (congrArg Prod.fst h))
  have ec : ([(0, 0), (d, e), (d, e), (0, 0)] : List (ℚ × ℚ)).count (d, e) = 2 := by
    rw [List.count_cons_of_ne hne, List.count_cons_self, List.count_cons_self, List.count_cons_of_ne hne]
    rfl
  rw [el, ec] at this
  show dot _ = _
  rw [el]
  simpa using this (by simp) (by norm_num)

theorem axisSum_pair (h : IsFloat64 sqrt sum dot) {d : ℚ} (hd : 0 < d) (hf : round64 d = d) :
    (binary64 sqrt sum dot).axisSum (pairDist d) = fun _ => d := by
  funext i
  show sum (List.ofFn (pairDist d i)) = d
  have el : List.ofFn (pairDist d i) = [0, d] ∨ List.ofFn (pairDist d i) = [d, 0] := by
    fin_cases i <;> simp [pairDist]
  have ec : (List.ofFn (pairDist d i)).count d = 1 := by
    rcases el with el | el <;> rw [el] <;> simp [hd.ne]
  have := (h.sum (List.ofFn (pairDist d i))).two hd.ne' hf (by rw [round64_two_mul, hf])
    (by rcases el with el | el <;> rw [el] <;> simp) (by omega)
  rw [this, ec]; simp

theorem vsum_pair (h : IsFloat64 sqrt sum dot) {d : ℚ} (hd : 0 < d) (hf : round64 d = d) :
    (binary64 sqrt sum dot).vsum (fun _ : Fin 2 => d) = 2 * d := by
  show sum (List.ofFn fun _ : Fin 2 => d) = 2 * d
  have ec : (List.ofFn fun _ : Fin 2 => d).count d = 2 := by simp
  rw [(h.sum (List.ofFn fun _ : Fin 2 => d)).two hd.ne' hf (by rw [round64_two_mul, hf]) (by simp) (by omega), ec]
  simp

theorem fromTerms_pair (h : IsFloat64 sqrt sum dot) {d e f : ℚ} (ok : PairOk d e f) :
    (binary64 sqrt sum dot).fromTerms false (2 * f) (fun _ : Fin 2 => d) (2 * d) (fun _ => e) (2 * e) = f / 4 := by
  have hv : (binary64 sqrt sum dot).vdot (fun _ : Fin 2 => (binary64 sqrt sum dot).idiv d (2 : ℕ)) (fun _ => e) = f := by
    have e1 : (binary64 sqrt sum dot).idiv d (2 : ℕ) = d / 2 := by
      show round64 (d / round64 (((2 : ℕ) : ℤ) : ℚ)) = d / 2
      rw [show round64 (((2 : ℕ) : ℤ) : ℚ) = 2 by decide +kernel, round64_half, ok.dfl]
    rw [e1]
    show dot (List.ofFn fun _ : Fin 2 => (d / 2, e)) = f
    have ec : (List.ofFn fun _ : Fin 2 => (d / 2, e)).count (d / 2, e) = 2 := by simp
    rw [(h.dot (List.ofFn fun _ : Fin 2 => (d / 2, e))).two (f := f / 2) (half_pos ok.dpos).ne'
      (by rw [div_mul_eq_mul_div, round64_half, ok.prod]) (by rw [mul_div_cancel₀ _ two_ne_zero, ok.ffl])
      (by rw [div_mul_eq_mul_div, ← add_div, round64_half, ok.fma]; ring) (by simp) (by omega), ec]
    push_cast; ring
  unfold Arith.fromTerms
  dsimp only
  rw [hv]
  have e2 : round64 (((2 : ℕ) : ℤ) : ℚ) = 2 := by decide +kernel
  have e4 : round64 (((((2 : ℕ) : ℤ) ^ 2 : ℤ)) : ℚ) = 4 := by decide +kernel
  have e8 : round64 (((((2 : ℕ) : ℤ) ^ 3 : ℤ)) : ℚ) = 8 := by decide +kernel
  have e2' : round64 ((2 : ℤ) : ℚ) = 2 := by decide +kernel
  show round64 (round64 (round64 (round64 (2 * f / round64 (((2 : ℕ) : ℤ) : ℚ)) / round64 (((2 : ℕ) : ℤ) : ℚ))
      - round64 (round64 ((2 : ℤ) : ℚ) * round64 (f / round64 (((((2 : ℕ) : ℤ) ^ 2 : ℤ)) : ℚ))))
    + round64 (round64 (round64 (2 * d / round64 (((2 : ℕ) : ℤ) : ℚ)) * (2 * e))
      / round64 (((((2 : ℕ) : ℤ) ^ 3 : ℤ)) : ℚ))) = _
  rw [e4, e8, e2', e2]
  have s1 : round64 (f / 2) = f / 2 := by rw [round64_half, ok.ffl]
  have s2 : round64 (f / 4) = f / 4 := by
    rw [show f / 4 = f / 2 / 2 by ring, round64_half, s1]
  rw [mul_div_cancel_left₀ _ (two_ne_zero' ℚ), mul_div_cancel_left₀ _ (two_ne_zero' ℚ), ok.ffl, ok.dfl, s1, s2,
    show 2 * (f / 4) = f / 2 by ring, s1, sub_self, round64_zero, zero_add, show d * (2 * e) = 2 * (d * e) by ring,
    round64_two_mul, ok.prod, show 2 * f / 8 = f / 4 by ring, s2, s2]

/-- The statistics of the naive method for `[0, d]` and `[0, e]`. -/
theorem naiveStats_pair (h : IsFloat64 sqrt sum dot) {d e f vd ve : ℚ} (ok : PairOk d e f) (okd : PairOk d d vd)
    (oke : PairOk e e ve) :
    (binary64 sqrt sum dot).naiveStats false (fun i (_ : Fin 1) => (![0, d] : Fin 2 → ℚ) i)
      (fun i (_ : Fin 1) => (![0, e] : Fin 2 → ℚ) i)
    = { cov := f / 4
        corr := if (binary64 sqrt sum dot).eqZero (sqrt (round64 (vd / 4 * (ve / 4)))) = true then 0
          else round64 (f / 4 / sqrt (round64 (vd / 4 * (ve / 4))))
        varX := vd / 4
        varY := ve / 4 } := by
  have hvd : 0 ≤ vd := by rw [← okd.prod]; exact round64_nonneg (mul_self_nonneg _)
  have hve : 0 ≤ ve := by rw [← oke.prod]; exact round64_nonneg (mul_self_nonneg _)
  have hp : 0 ≤ round64 (vd / 4 * (ve / 4)) := round64_nonneg (by positivity)
  have z : round64 ((0 : ℤ) : ℚ) = 0 := by decide +kernel
  have hden : (binary64 sqrt sum dot).sqrtClip ((binary64 sqrt sum dot).abs ((binary64 sqrt sum dot).mul (vd / 4) (ve / 4)))
      = sqrt (round64 (vd / 4 * (ve / 4))) := by
    show sqrt (if decide (|round64 (vd / 4 * (ve / 4))| < round64 ((0 : ℤ) : ℚ)) = true then round64 ((0 : ℤ) : ℚ)
      else |round64 (vd / 4 * (ve / 4))|) = _
    rw [abs_of_nonneg hp, z, if_neg (by simpa using hp)]
  unfold Arith.naiveStats
  rw [euclidean_pair h ok.dpos ok.dfl, euclidean_pair h ok.epos ok.efl]
  unfold Arith.naiveTerms
  rw [axisSum_pair h ok.dpos ok.dfl, axisSum_pair h ok.epos ok.efl, vsum_pair h ok.dpos ok.dfl, vsum_pair h ok.epos ok.efl,
    mdot_pair h ok, mdot_pair h okd, mdot_pair h oke]
  unfold Arith.statsFromTerms Arith.covFromTerms
  dsimp only
  rw [fromTerms_pair h ok, fromTerms_pair h okd, fromTerms_pair h oke, hden]
  rfl

end Dcor

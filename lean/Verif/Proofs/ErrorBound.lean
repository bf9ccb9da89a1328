/-
Forward error analysis of the naive method in `float64`.
-/
import Verif.Proofs.Float
import Verif.Proofs.FromTerms
import Mathlib.Algebra.Order.BigOperators.Group.Finset
import Mathlib.Tactic.Positivity
import Mathlib.Tactic.NormNum
import Mathlib.Algebra.BigOperators.Fin
import Mathlib.Analysis.Complex.Exponential

namespace Dcor

/-- Unit roundoff of `float64`. -/
noncomputable def uRound : ℝ := 1 / 2 ^ 53

theorem uRound_pos : 0 < uRound := by unfold uRound; positivity

theorem uRound_lt : uRound < 1 / 4 := by unfold uRound; norm_num

/-- `b` differs from `a ≥ 0` by at most `k` factors between `1 - u` and `1 + u`. -/
structure Near (k : ℕ) (a b : ℝ) : Prop where
  nonneg : 0 ≤ a
  lower : (1 - uRound) ^ k * a ≤ b
  upper : b ≤ (1 + uRound) ^ k * a

namespace Near

variable {k l : ℕ} {a b c d : ℝ}

theorem low_pos (k : ℕ) : 0 < (1 - uRound) ^ k := pow_pos (by linarith [uRound_lt]) k

theorem up_pos (k : ℕ) : 0 < (1 + uRound) ^ k := pow_pos (by linarith [uRound_pos]) k

theorem nonneg' (h : Near k a b) : 0 ≤ b := le_trans (mul_nonneg (low_pos k).le h.nonneg) h.lower

theorem refl (h : 0 ≤ a) : Near 0 a a := ⟨h, by simp, by simp⟩

theorem mono (h : Near k a b) (hkl : k ≤ l) : Near l a b where
  nonneg := h.nonneg
  lower := le_trans (mul_le_mul_of_nonneg_right
    (pow_le_pow_of_le_one (by linarith [uRound_lt]) (by linarith [uRound_pos]) hkl) h.nonneg) h.lower
  upper := le_trans h.upper (mul_le_mul_of_nonneg_right
    (pow_le_pow_right₀ (by linarith [uRound_pos]) hkl) h.nonneg)

theorem trans (h : Near k a b) (h' : Near l b c) : Near (k + l) a c where
  nonneg := h.nonneg
  lower := by
    refine le_trans ?_ h'.lower
    rw [pow_add, mul_comm ((1 - uRound) ^ k), mul_assoc]
    exact mul_le_mul_of_nonneg_left h.lower (low_pos l).le
  upper := by
    refine le_trans h'.upper ?_
    rw [pow_add, mul_comm ((1 + uRound) ^ k), mul_assoc]
    exact mul_le_mul_of_nonneg_left h.upper (up_pos l).le

theorem add (h : Near k a b) (h' : Near k c d) : Near k (a + c) (b + d) :=
  ⟨add_nonneg h.nonneg h'.nonneg, by rw [mul_add]; exact add_le_add h.lower h'.lower,
    by rw [mul_add]; exact add_le_add h.upper h'.upper⟩

theorem mul (h : Near k a b) (h' : Near l c d) : Near (k + l) (a * c) (b * d) where
  nonneg := mul_nonneg h.nonneg h'.nonneg
  lower := by
    have := mul_le_mul h.lower h'.lower (mul_nonneg (low_pos l).le h'.nonneg) h.nonneg'
    calc _ = (1 - uRound) ^ k * a * ((1 - uRound) ^ l * c) := by rw [pow_add]; ring
      _ ≤ _ := this
  upper := by
    have := mul_le_mul h.upper h'.upper h'.nonneg' (mul_nonneg (up_pos k).le h.nonneg)
    calc _ ≤ (1 + uRound) ^ k * a * ((1 + uRound) ^ l * c) := this
      _ = _ := by rw [pow_add]; ring

theorem const_mul (hc : 0 ≤ c) (h : Near k a b) : Near k (c * a) (c * b) := by
  have := (refl hc).mul h
  rwa [Nat.zero_add] at this

theorem sum {n : ℕ} {f g : Fin n → ℝ} (h : ∀ i, Near k (f i) (g i)) : Near k (∑ i, f i) (∑ i, g i) where
  nonneg := Finset.sum_nonneg fun i _ => (h i).nonneg
  lower := by rw [Finset.mul_sum]; exact Finset.sum_le_sum fun i _ => (h i).lower
  upper := by rw [Finset.mul_sum]; exact Finset.sum_le_sum fun i _ => (h i).upper

theorem round {b : ℚ} (h : Near k a b) : Near (k + 1) a (round64 b : ℚ) := by
  refine h.trans ?_
  have hb := h.nonneg'
  have hq : (0 : ℚ) ≤ b := by exact_mod_cast hb
  have herr := abs_le.1 (round64_err b)
  rw [abs_of_nonneg hq] at herr
  have h1 := (Rat.cast_le (K := ℝ)).2 herr.1
  have h2 := (Rat.cast_le (K := ℝ)).2 herr.2
  push_cast at h1 h2
  refine ⟨hb, ?_, ?_⟩
  · rw [pow_one]; unfold uRound; linarith
  · rw [pow_one]; unfold uRound; linarith

/-- Division by a positive integer that is itself rounded. -/
theorem idiv {b : ℚ} {m : ℤ} (hm : 0 < m) (h : Near k a b) :
    Near (k + 3) (a / m) (round64 (b / round64 m) : ℚ) := by
  have hmR : (0 : ℝ) < m := by exact_mod_cast hm
  have hu := uRound_pos
  have hu' := uRound_lt
  have hn := Near.round (b := (m : ℚ)) (by simpa using refl hmR.le)
  rw [Nat.zero_add] at hn
  have hr : (0 : ℝ) < (round64 m : ℚ) := lt_of_lt_of_le (by rw [pow_one]; nlinarith) hn.lower
  have hinv : Near 2 (1 / (m : ℝ)) (1 / ((round64 m : ℚ) : ℝ)) := by
    refine ⟨by positivity, ?_, ?_⟩
    · rw [mul_one_div, div_le_div_iff₀ hmR hr, one_mul]
      have := hn.upper
      rw [pow_one] at this
      calc (1 - uRound) ^ 2 * ((round64 m : ℚ) : ℝ) ≤ (1 - uRound) ^ 2 * ((1 + uRound) * m) :=
            mul_le_mul_of_nonneg_left this (by positivity)
        _ = (1 - uRound) * (1 - uRound ^ 2) * m := by ring
        _ ≤ 1 * m := mul_le_mul_of_nonneg_right (by nlinarith) hmR.le
        _ = m := one_mul _
    · rw [mul_one_div, div_le_div_iff₀ hr hmR, one_mul]
      have := hn.lower
      rw [pow_one] at this
      calc (m : ℝ) = 1 * m := (one_mul _).symm
        _ ≤ (1 + uRound) ^ 2 * (1 - uRound) * m := by
            have h0 : 0 ≤ uRound * (1 - uRound - uRound ^ 2) := mul_nonneg hu.le (by nlinarith)
            exact mul_le_mul_of_nonneg_right (by nlinarith) hmR.le
        _ = (1 + uRound) ^ 2 * ((1 - uRound) * m) := by ring
        _ ≤ (1 + uRound) ^ 2 * ((round64 m : ℚ) : ℝ) := mul_le_mul_of_nonneg_left this (by positivity)
  have := h.mul hinv
  rw [mul_one_div, mul_one_div] at this
  exact (show Near (k + 2) (a / m) ((b / round64 m : ℚ) : ℝ) by push_cast; exact this).round

end Near

theorem SumsTo.near {l : List ℚ} {r : ℚ} (h : SumsTo l r) :
    (∀ a ∈ l, 0 ≤ a) → Near l.length ((l.sum : ℚ) : ℝ) r := by
  induction h with
  | nil => intro _; exact ⟨by simp, by simp, by simp⟩
  | single a =>
    intro h
    have : (0 : ℝ) ≤ a := by exact_mod_cast h a (by simp)
    rw [List.sum_singleton]
    exact (Near.refl this).mono (Nat.zero_le _)
  | @add l l' a b hl hl' _ _ ih ih' =>
    intro h
    have h1 := ih fun a ha => h a (by simp [ha])
    have h2 := ih' fun a ha => h a (by simp [ha])
    have p1 := List.length_pos_of_ne_nil hl
    have p2 := List.length_pos_of_ne_nil hl'
    have h1' := h1.mono (l := l.length + l'.length - 1) (by omega)
    have h2' := h2.mono (l := l.length + l'.length - 1) (by omega)
    have := (show Near (l.length + l'.length - 1) (((l ++ l').sum : ℚ) : ℝ) ((a + b : ℚ) : ℝ) by
      rw [List.sum_append]; rw [Rat.cast_add, Rat.cast_add]; exact h1'.add h2').round
    exact this.mono (by rw [List.length_append]; omega)
  | perm _ hp ih =>
    intro h
    rw [← hp.sum_eq, ← hp.length_eq]
    exact ih fun a ha => h a (hp.mem_iff.1 ha)

/-- Exact scalar product. -/
def dotExact (l : List (ℚ × ℚ)) : ℚ := (l.map fun p => p.1 * p.2).sum

theorem DotsTo.near {l : List (ℚ × ℚ)} {r : ℚ} (h : DotsTo l r) :
    (∀ p ∈ l, 0 ≤ p.1 ∧ 0 ≤ p.2) → Near l.length ((dotExact l : ℚ) : ℝ) r := by
  induction h with
  | nil => intro _; exact ⟨by simp [dotExact], by simp [dotExact], by simp [dotExact]⟩
  | single a b =>
    intro h
    have hab : (0 : ℝ) ≤ ((a * b : ℚ) : ℝ) := by
      have := h (a, b) (by simp)
      exact_mod_cast mul_nonneg this.1 this.2
    simpa [dotExact] using (Near.refl hab).round
  | @fma a b l c hl _ ih =>
    intro h
    have h1 := ih fun a ha => h a (by simp [ha])
    have hab : (0 : ℝ) ≤ ((a * b : ℚ) : ℝ) := by
      have := h (a, b) (by simp)
      exact_mod_cast mul_nonneg this.1 this.2
    have := (show Near l.length ((dotExact ((a, b) :: l) : ℚ) : ℝ) ((a * b + c : ℚ) : ℝ) by
      have h2 := ((Near.refl hab).mono (Nat.zero_le l.length)).add h1
      simpa [dotExact] using h2).round
    exact this.mono (by simp)
  | @add l l' a b hl hl' _ _ ih ih' =>
    intro h
    have h1 := ih fun a ha => h a (by simp [ha])
    have h2 := ih' fun a ha => h a (by simp [ha])
    have p1 := List.length_pos_of_ne_nil hl
    have p2 := List.length_pos_of_ne_nil hl'
    have h1' := h1.mono (l := l.length + l'.length - 1) (by omega)
    have h2' := h2.mono (l := l.length + l'.length - 1) (by omega)
    have := (show Near (l.length + l'.length - 1) ((dotExact (l ++ l') : ℚ) : ℝ) ((a + b : ℚ) : ℝ) by
      unfold dotExact at *
      rw [List.map_append, List.sum_append]; rw [Rat.cast_add, Rat.cast_add]; exact h1'.add h2').round
    exact this.mono (by rw [List.length_append]; omega)
  | perm _ hp ih =>
    intro h
    unfold dotExact at *
    rw [← (hp.map _).sum_eq, ← hp.length_eq]
    exact ih fun a ha => h a (hp.mem_iff.1 ha)

theorem Near.sqrt {k j : ℕ} {a : ℝ} {b r : ℚ} (h : Near k a b) (hj : k ≤ 2 * j) (hr : SqrtTo b r) :
    Near (j + 1) (Real.sqrt a) r := by
  have h := h.mono hj
  have h1 : Near j (Real.sqrt a) (Real.sqrt b) := by
    refine ⟨Real.sqrt_nonneg a, ?_, ?_⟩
    · have := Real.sqrt_le_sqrt h.lower
      rwa [Real.sqrt_mul (Near.low_pos _).le, mul_comm 2 j, pow_mul, Real.sqrt_sq (Near.low_pos _).le] at this
    · have := Real.sqrt_le_sqrt h.upper
      rwa [Real.sqrt_mul (Near.up_pos _).le, mul_comm 2 j, pow_mul, Real.sqrt_sq (Near.up_pos _).le] at this
  refine h1.trans ?_
  have herr := abs_le.1 hr.err
  refine ⟨Real.sqrt_nonneg _, ?_, ?_⟩
  · rw [pow_one]; unfold uRound; linarith [herr.1]
  · rw [pow_one]; unfold uRound; linarith [herr.2]

/-! ### The naive method -/

variable {sqrt : ℚ → ℚ} {sum : List ℚ → ℚ} {dot : List (ℚ × ℚ) → ℚ} {n p q : ℕ}

theorem Near.vsum (h : IsFloat64 sqrt sum dot) {k : ℕ} {f : Fin n → ℝ} {g : Fin n → ℚ}
    (hfg : ∀ i, Near k (f i) (g i)) : Near (k + n) (∑ i, f i) ((binary64 sqrt sum dot).vsum g : ℚ) := by
  refine (Near.sum hfg).trans ?_
  have := (h.sum (List.ofFn g)).near (by
    intro a ha
    obtain ⟨i, rfl⟩ := List.mem_ofFn.1 ha
    exact_mod_cast (hfg i).nonneg')
  rw [List.length_ofFn, List.sum_ofFn] at this
  push_cast at this
  exact this

theorem Near.vdot (h : IsFloat64 sqrt sum dot) {k l : ℕ} {f f' : Fin n → ℝ} {g g' : Fin n → ℚ}
    (hfg : ∀ i, Near k (f i) (g i)) (hfg' : ∀ i, Near l (f' i) (g' i)) :
    Near (k + l + n) (∑ i, f i * f' i) ((binary64 sqrt sum dot).vdot g g' : ℚ) := by
  refine (Near.sum fun i => (hfg i).mul (hfg' i)).trans ?_
  have := (h.dot (List.ofFn fun i => (g i, g' i))).near (by
    intro a ha
    obtain ⟨i, rfl⟩ := List.mem_ofFn.1 ha
    exact ⟨by exact_mod_cast (hfg i).nonneg', by exact_mod_cast (hfg' i).nonneg'⟩)
  rw [List.length_ofFn, dotExact, List.map_ofFn, List.sum_ofFn] at this
  push_cast at this
  show Near n _ ((dot (List.ofFn fun i => (g i, g' i)) : ℚ) : ℝ)
  simpa using this

theorem sum_flatMap_finRange_rat (f : Fin n → Fin n → ℚ) :
    ((List.finRange n).flatMap fun i => (List.finRange n).map fun j => f i j).sum = ∑ i, ∑ j, f i j := by
  rw [List.flatMap, List.sum_flatten, List.map_map, ← List.ofFn_eq_map, List.sum_ofFn]
  refine Finset.sum_congr rfl fun i _ => ?_
  simp only [Function.comp]
  rw [← List.ofFn_eq_map, List.sum_ofFn]

theorem Near.mdot (h : IsFloat64 sqrt sum dot) {k l : ℕ} {a b : Fin n → Fin n → ℝ} {a' b' : Fin n → Fin n → ℚ}
    (ha : ∀ i j, Near k (a i j) (a' i j)) (hb : ∀ i j, Near l (b i j) (b' i j)) :
    Near (k + l + n * n) (∑ i, ∑ j, a i j * b i j) ((binary64 sqrt sum dot).mdot a' b' : ℚ) := by
  refine (Near.sum fun i => Near.sum fun j => (ha i j).mul (hb i j)).trans ?_
  have := (h.dot ((List.finRange n).flatMap fun i => (List.finRange n).map fun j => (a' i j, b' i j))).near (by
    intro c hc
    simp only [List.mem_flatMap, List.mem_map, List.mem_finRange, true_and] at hc
    obtain ⟨i, j, rfl⟩ := hc
    exact ⟨by exact_mod_cast (ha i j).nonneg', by exact_mod_cast (hb i j).nonneg'⟩)
  have hlen : ((List.finRange n).flatMap fun i => (List.finRange n).map fun j => (a' i j, b' i j)).length = n * n := by
    simp [List.length_flatMap]
  rw [hlen, dotExact, List.map_flatMap] at this
  simp only [List.map_map, Function.comp_def] at this
  rw [sum_flatMap_finRange_rat] at this
  push_cast at this
  exact this

/-- Number of roundings in a distance between points with `p` components. -/
def distErr (p : ℕ) : ℕ := (p + 3) / 2 + 2

theorem Near.euclidean (h : IsFloat64 sqrt sum dot) (x : Fin n → Fin p → ℚ) (i j : Fin n) :
    Near (distErr p) (Real.sqrt (∑ k, ((x i k : ℝ) - x j k) ^ 2)) ((binary64 sqrt sum dot).euclidean x i j : ℚ) := by
  have hk : ∀ k, Near 3 (((x i k : ℝ) - x j k) ^ 2)
      (round64 (round64 (x i k - x j k) * round64 (x i k - x j k)) : ℚ) := by
    intro k
    have h1 : Near 1 |(x i k : ℝ) - x j k| (round64 |x i k - x j k| : ℚ) := by
      have := (Near.refl (abs_nonneg ((x i k : ℝ) - x j k)))
      exact Near.round (k := 0) (by push_cast; exact this)
    have h2 := h1.mul h1
    rw [round64_abs] at h2
    have e : |round64 (x i k - x j k)| * |round64 (x i k - x j k)|
        = round64 (x i k - x j k) * round64 (x i k - x j k) := abs_mul_abs_self _
    rw [abs_mul_abs_self, ← Rat.cast_mul, e, ← pow_two] at h2
    exact h2.round
  have hs := Near.vsum h hk
  have hnn : 0 ≤ (binary64 sqrt sum dot).vsum fun k =>
      round64 (round64 (x i k - x j k) * round64 (x i k - x j k)) := by exact_mod_cast hs.nonneg'
  exact hs.sqrt (j := (p + 3) / 2 + 1) (by omega) (h.sqrt _ hnn)

/-- Number of roundings in each of the three terms of the squared distance covariance. -/
def termErr (n p q : ℕ) : ℕ := distErr p + distErr q + n * n + 4 * n + 7

/-- Errors of the last two operations. -/
theorem final_error {K : ℕ} {F S T : ℝ} {f s t : ℚ} (hf : Near K F f) (hs : Near K S s) (ht : Near K T t) :
    |((round64 (round64 (f - s) + t) : ℚ) : ℝ) - (F - S + T)| ≤ ((1 + uRound) ^ (K + 2) - 1) * (F + S + T) := by
  have hu := uRound_pos
  have hu' := uRound_lt
  have r1 := round64_err (f - s)
  have r2 := round64_err (round64 (f - s) + t)
  have r1' := (Rat.cast_le (K := ℝ)).2 r1
  have r2' := (Rat.cast_le (K := ℝ)).2 r2
  push_cast at r1' r2'
  set g : ℝ := ((round64 (f - s) : ℚ) : ℝ) with hg
  set r : ℝ := ((round64 (round64 (f - s) + t) : ℚ) : ℝ) with hr
  have hf0 := hf.nonneg'
  have hs0 := hs.nonneg'
  have ht0 := ht.nonneg'
  set E := (1 + uRound) ^ K with hE
  have hE1 : 1 ≤ E := one_le_pow₀ (by linarith)
  have hlow : 2 - E ≤ (1 - uRound) ^ K := by
    rw [hE]
    have : ∀ k : ℕ, 2 ≤ (1 - uRound) ^ k + (1 + uRound) ^ k := by
      intro k
      have h1 := one_add_mul_le_pow (a := -uRound) (by linarith) k
      have h2 := one_add_mul_le_pow (a := uRound) (by linarith) k
      rw [← sub_eq_add_neg] at h1
      linarith
    linarith [this K]
  have key : ∀ {A a : ℝ}, Near K A a → |a - A| ≤ (E - 1) * A := by
    intro A a h
    rw [abs_le]
    have h1 := h.lower
    have h2 := h.upper
    have h3 := mul_le_mul_of_nonneg_right hlow h.nonneg
    constructor <;> nlinarith
  have kf := key hf
  have ks := key hs
  have kt := key ht
  have u1 : |g - (f - s)| ≤ uRound * (f + s) := by
    refine le_trans r1' ?_
    have : |(f : ℝ) - s| ≤ f + s := abs_le.2 ⟨by linarith, by linarith⟩
    unfold uRound
    linarith
  have hgabs : |g| ≤ (1 + uRound) * (f + s) := by
    have h1 := abs_le.1 u1
    rw [abs_le]
    constructor <;> nlinarith
  have u2 : |r - (g + t)| ≤ uRound * ((1 + uRound) * (f + s) + t) := by
    refine le_trans r2' ?_
    have : |g + (t : ℝ)| ≤ (1 + uRound) * (f + s) + t := by
      refine le_trans (abs_add_le _ _) ?_
      rw [abs_of_nonneg ht0]
      linarith
    unfold uRound at *
    linarith
  have h1 := abs_le.1 u1
  have h2 := abs_le.1 u2
  have h3 := abs_le.1 kf
  have h4 := abs_le.1 ks
  have h5 := abs_le.1 kt
  have hFb : (f : ℝ) ≤ E * F := hf.upper
  have hSb : (s : ℝ) ≤ E * S := hs.upper
  have hTb : (t : ℝ) ≤ E * T := ht.upper
  have hF0 := hf.nonneg
  have hS0 := hs.nonneg
  have hT0 := ht.nonneg
  have hpow : (1 + uRound) ^ (K + 2) = E * (1 + uRound) ^ 2 := by rw [hE, pow_add]
  have tot : uRound * (f + s) + uRound * ((1 + uRound) * (f + s) + t)
      ≤ (2 * uRound + uRound ^ 2) * (E * (F + S + T)) := by
    have e1 : uRound * (f + s) + uRound * ((1 + uRound) * (f + s) + t)
        ≤ (2 * uRound + uRound ^ 2) * (f + s + t) := by nlinarith [mul_nonneg hu.le ht0]
    refine le_trans e1 (mul_le_mul_of_nonneg_left (by linarith) (by positivity))
  rw [hpow]
  have goal : E * (1 + uRound) ^ 2 - 1 = (E - 1) + (2 * uRound + uRound ^ 2) * E := by ring
  rw [goal, abs_le]
  constructor <;> nlinarith

/-- Terms of the squared distance covariance with divisors `d₁`, `d₂`, `d₃`. -/
theorem fromTerms_near (h : IsFloat64 sqrt sum dot) (bc : Bool) (hn : if bc then 3 < n else 0 < n)
    {k l : ℕ} {a b : Fin n → Fin n → ℝ} {a' b' : Fin n → Fin n → ℚ}
    (ha : ∀ i j, Near k (a i j) (a' i j)) (hb : ∀ i j, Near l (b i j) (b' i j)) {d₁ d₂ d₃ : ℤ}
    (h₁ : d₁ = if bc then (n : ℤ) - 3 else n) (h₂ : d₂ = if bc then ((n : ℤ) - 2) * (n - 3) else (n : ℤ) ^ 2)
    (h₃ : d₃ = if bc then ((n : ℤ) - 1) * (n - 2) * (n - 3) else (n : ℤ) ^ 3) :
    |(((binary64 sqrt sum dot).fromTerms bc ((binary64 sqrt sum dot).mdot a' b')
        ((binary64 sqrt sum dot).axisSum a') ((binary64 sqrt sum dot).vsum ((binary64 sqrt sum dot).axisSum a'))
        ((binary64 sqrt sum dot).axisSum b') ((binary64 sqrt sum dot).vsum ((binary64 sqrt sum dot).axisSum b')) : ℚ) : ℝ)
      - ((∑ i, ∑ j, a i j * b i j) / (n * d₁) - 2 * (∑ i, (∑ j, a i j) * (∑ j, b i j)) / (n * d₂)
        + (∑ i, ∑ j, a i j) * (∑ i, ∑ j, b i j) / (n * d₃))|
      ≤ ((1 + uRound) ^ (k + l + n * n + 4 * n + 9) - 1)
        * ((∑ i, ∑ j, a i j * b i j) / (n * d₁) + 2 * (∑ i, (∑ j, a i j) * (∑ j, b i j)) / (n * d₂)
        + (∑ i, ∑ j, a i j) * (∑ i, ∑ j, b i j) / (n * d₃)) := by
  have hm : (0 : ℤ) < n := by cases bc <;> simp at hn <;> omega
  have p1 : 0 < d₁ := by cases bc <;> simp at hn h₁ <;> omega
  have p2 : 0 < d₂ := by
    cases bc
    · simp at h₂; rw [h₂]; positivity
    · simp at h₂ hn; rw [h₂]; exact mul_pos (by omega) (by omega)
  have p3 : 0 < d₃ := by
    cases bc
    · simp at h₃; rw [h₃]; positivity
    · simp at h₃ hn; rw [h₃]; exact mul_pos (mul_pos (by omega) (by omega)) (by omega)
  have hnR : (0 : ℝ) < n := by exact_mod_cast hm
  have axisA : ∀ i, Near (k + n) (∑ j, a i j) ((binary64 sqrt sum dot).axisSum a' i : ℚ) := fun i => Near.vsum h (ha i)
  have axisB : ∀ i, Near (l + n) (∑ j, b i j) ((binary64 sqrt sum dot).axisSum b' i : ℚ) := fun i => Near.vsum h (hb i)
  have totA := Near.vsum h axisA
  have totB := Near.vsum h axisB
  have F := ((Near.mdot h ha hb).idiv hm).idiv p1
  have S := ((Near.vdot h (fun i => (axisA i).idiv hm) axisB).idiv p2)
  have T := Near.idiv p3 (Near.round (b := round64 ((binary64 sqrt sum dot).vsum ((binary64 sqrt sum dot).axisSum a')
    / round64 (n : ℤ)) * (binary64 sqrt sum dot).vsum ((binary64 sqrt sum dot).axisSum b'))
    (by rw [Rat.cast_mul]; exact (totA.idiv hm).mul totB))
  have S2 := (Near.round (b := round64 ((2 : ℤ) : ℚ) * round64 ((binary64 sqrt sum dot).vdot
      (fun i => round64 ((binary64 sqrt sum dot).axisSum a' i / round64 (n : ℤ))) ((binary64 sqrt sum dot).axisSum b')
      / round64 d₂)) (by
    rw [Rat.cast_mul, round64_int 2 (by norm_num)]
    exact S.const_mul (c := (((2 : ℤ) : ℚ) : ℝ)) (by norm_num)))
  have key := final_error (K := k + l + n * n + 4 * n + 7) (F.mono (by omega)) (S2.mono (by omega)) (T.mono (by omega))
  have e1 : (∑ i, ∑ j, a i j * b i j) / ((n : ℤ) : ℝ) / d₁ = (∑ i, ∑ j, a i j * b i j) / (n * d₁) := by
    rw [div_div, Int.cast_natCast]
  have e2 : (((2 : ℤ) : ℚ) : ℝ) * ((∑ i, (∑ j, a i j) / ((n : ℤ) : ℝ) * (∑ j, b i j)) / d₂)
      = 2 * (∑ i, (∑ j, a i j) * (∑ j, b i j)) / (n * d₂) := by
    have : ∀ i, (∑ j, a i j) / ((n : ℤ) : ℝ) * (∑ j, b i j) = ((∑ j, a i j) * (∑ j, b i j)) / n := by
      intro i; rw [Int.cast_natCast]; ring
    rw [Finset.sum_congr rfl fun i _ => this i, ← Finset.sum_div, div_div]
    push_cast
    ring
  have e3 : (∑ i, ∑ j, a i j) / ((n : ℤ) : ℝ) * (∑ i, ∑ j, b i j) / d₃
      = (∑ i, ∑ j, a i j) * (∑ i, ∑ j, b i j) / (n * d₃) := by
    rw [Int.cast_natCast, ← div_div]; ring
  rw [e1, e2, e3] at key
  subst h₁ h₂ h₃
  exact key

theorem pow_sub_one_le {K : ℕ} (hK : K ≤ 2 ^ 53) : (1 + uRound) ^ K - 1 ≤ 2 * K / 2 ^ 53 := by
  have hu := uRound_pos
  have h1 : (1 + uRound) ^ K ≤ Real.exp (K * uRound) := by
    rw [Real.exp_nat_mul]
    exact pow_le_pow_left₀ (by linarith) (by linarith [Real.add_one_le_exp uRound]) K
  have hx0 : 0 ≤ K * uRound := by positivity
  have hx1 : K * uRound ≤ 1 := by
    have : (K : ℝ) ≤ 2 ^ 53 := by exact_mod_cast hK
    unfold uRound
    rw [mul_one_div, div_le_one (by positivity)]
    exact this
  have h2 := (abs_le.1 (Real.abs_exp_sub_one_sub_id_le (x := K * uRound) (by rw [abs_of_nonneg hx0]; exact hx1))).2
  have h3 : (K * uRound) ^ 2 ≤ K * uRound := by nlinarith
  have h4 : (2 : ℝ) * K / 2 ^ 53 = 2 * (K * uRound) := by unfold uRound; ring
  rw [h4]
  linarith

section Size

variable {a b : Fin n → Fin n → ℝ} {A B : ℝ} (ha0 : ∀ i j, 0 ≤ a i j) (hb0 : ∀ i j, 0 ≤ b i j) (ha : ∀ i j, a i j ≤ A)
  (hb : ∀ i j, b i j ≤ B)

include ha0 hb0 ha hb

/-- Size of the three terms of the biased estimator. -/
theorem biased_size (hn : 0 < n) :
    (∑ i, ∑ j, a i j * b i j) / (n * n) + 2 * (∑ i, (∑ j, a i j) * (∑ j, b i j)) / (n * n ^ 2)
      + (∑ i, ∑ j, a i j) * (∑ i, ∑ j, b i j) / (n * n ^ 3) ≤ 4 * (A * B) := by
  have hnR : (0 : ℝ) < n := by exact_mod_cast hn
  have hA : 0 ≤ A := le_trans (ha0 ⟨0, hn⟩ ⟨0, hn⟩) (ha ⟨0, hn⟩ ⟨0, hn⟩)
  have hB : 0 ≤ B := le_trans (hb0 ⟨0, hn⟩ ⟨0, hn⟩) (hb ⟨0, hn⟩ ⟨0, hn⟩)
  have sa : ∀ i, ∑ j, a i j ≤ n * A := fun i => by
    refine le_trans (Finset.sum_le_sum fun j _ => ha i j) ?_
    simp
  have sb : ∀ i, ∑ j, b i j ≤ n * B := fun i => by
    refine le_trans (Finset.sum_le_sum fun j _ => hb i j) ?_
    simp
  have sa0 : ∀ i, 0 ≤ ∑ j, a i j := fun i => Finset.sum_nonneg fun j _ => ha0 i j
  have sb0 : ∀ i, 0 ≤ ∑ j, b i j := fun i => Finset.sum_nonneg fun j _ => hb0 i j
  have ta : ∑ i, ∑ j, a i j ≤ n * (n * A) := by
    refine le_trans (Finset.sum_le_sum fun i _ => sa i) ?_
    simp
  have tb : ∑ i, ∑ j, b i j ≤ n * (n * B) := by
    refine le_trans (Finset.sum_le_sum fun i _ => sb i) ?_
    simp
  have F : (∑ i, ∑ j, a i j * b i j) / (n * n) ≤ A * B := by
    rw [div_le_iff₀ (by positivity)]
    refine le_trans (Finset.sum_le_sum fun i _ => Finset.sum_le_sum fun j _ =>
      mul_le_mul (ha i j) (hb i j) (hb0 i j) hA) ?_
    simp only [Finset.sum_const, Finset.card_univ, Fintype.card_fin, nsmul_eq_mul]
    exact le_of_eq (by ring)
  have S : 2 * (∑ i, (∑ j, a i j) * (∑ j, b i j)) / (n * n ^ 2) ≤ 2 * (A * B) := by
    rw [div_le_iff₀ (by positivity)]
    have := Finset.sum_le_sum fun i (_ : i ∈ Finset.univ) => mul_le_mul (sa i) (sb i) (sb0 i) (by positivity)
    simp only [Finset.sum_const, Finset.card_univ, Fintype.card_fin, nsmul_eq_mul] at this
    nlinarith
  have T : (∑ i, ∑ j, a i j) * (∑ i, ∑ j, b i j) / (n * n ^ 3) ≤ A * B := by
    rw [div_le_iff₀ (by positivity)]
    have := mul_le_mul ta tb (Finset.sum_nonneg fun i _ => sb0 i) (by positivity)
    nlinarith
  linarith

/-- Size of the three terms of the bias-corrected estimator. -/
theorem unbiased_size (hn : 3 < n) (hda : ∀ i, a i i = 0) (hdb : ∀ i, b i i = 0) :
    (∑ i, ∑ j, a i j * b i j) / (n * (n - 3)) + 2 * (∑ i, (∑ j, a i j) * (∑ j, b i j)) / (n * ((n - 2) * (n - 3)))
      + (∑ i, ∑ j, a i j) * (∑ i, ∑ j, b i j) / (n * ((n - 1) * (n - 2) * (n - 3))) ≤ 18 * (A * B) := by
  have hnR : (4 : ℝ) ≤ n := by exact_mod_cast hn
  have h0 : 0 < n := by omega
  have hA : 0 ≤ A := le_trans (ha0 ⟨0, h0⟩ ⟨0, h0⟩) (ha ⟨0, h0⟩ ⟨0, h0⟩)
  have hB : 0 ≤ B := le_trans (hb0 ⟨0, h0⟩ ⟨0, h0⟩) (hb ⟨0, h0⟩ ⟨0, h0⟩)
  have offdiag : ∀ (f : Fin n → Fin n → ℝ) (C : ℝ), (∀ i j, f i j ≤ C) → (∀ i, f i i = 0) → ∀ i,
      ∑ j, f i j ≤ (n - 1) * C := by
    intro f C hf hd i
    rw [← Finset.add_sum_erase Finset.univ _ (Finset.mem_univ i), hd, zero_add]
    refine le_trans (Finset.sum_le_sum fun j _ => hf i j) ?_
    rw [Finset.sum_const, Finset.card_erase_of_mem (Finset.mem_univ i), Finset.card_univ, Fintype.card_fin,
      nsmul_eq_mul, Nat.cast_sub (by omega), Nat.cast_one]
  have sa := offdiag a A ha hda
  have sb := offdiag b B hb hdb
  have sa0 : ∀ i, 0 ≤ ∑ j, a i j := fun i => Finset.sum_nonneg fun j _ => ha0 i j
  have sb0 : ∀ i, 0 ≤ ∑ j, b i j := fun i => Finset.sum_nonneg fun j _ => hb0 i j
  have total : ∀ (f : Fin n → ℝ) (C : ℝ), (∀ i, f i ≤ C) → ∑ i, f i ≤ n * C := by
    intro f C hf
    refine le_trans (Finset.sum_le_sum fun i _ => hf i) ?_
    simp
  have n1 : (0 : ℝ) ≤ n - 1 := by linarith
  have n2 : (0 : ℝ) < n - 2 := by linarith
  have n3 : (0 : ℝ) < n - 3 := by linarith
  have hAB : 0 ≤ A * B := mul_nonneg hA hB
  have F : (∑ i, ∑ j, a i j * b i j) / (n * (n - 3)) ≤ 3 * (A * B) := by
    rw [div_le_iff₀ (mul_pos (by linarith) n3)]
    have := total _ _ (offdiag (fun i j => a i j * b i j) (A * B) (fun i j => mul_le_mul (ha i j) (hb i j) (hb0 i j) hA)
      (fun i => by simp [hda]))
    refine le_trans this ?_
    have : (n : ℝ) - 1 ≤ 3 * (n - 3) := by linarith
    calc (n : ℝ) * ((n - 1) * (A * B)) ≤ n * ((3 * (n - 3)) * (A * B)) :=
          mul_le_mul_of_nonneg_left (mul_le_mul_of_nonneg_right this hAB) (by linarith)
      _ = _ := by ring
  have S : 2 * (∑ i, (∑ j, a i j) * (∑ j, b i j)) / (n * ((n - 2) * (n - 3))) ≤ 9 * (A * B) := by
    rw [div_le_iff₀ (mul_pos (by linarith) (mul_pos n2 n3))]
    have h1 := total _ _ fun i => mul_le_mul (sa i) (sb i) (sb0 i) (mul_nonneg n1 hA)
    have h2 : 2 * ((n : ℝ) - 1) ^ 2 ≤ 9 * ((n - 2) * (n - 3)) := by nlinarith
    calc 2 * (∑ i, (∑ j, a i j) * (∑ j, b i j)) ≤ 2 * (n * ((n - 1) * A * ((n - 1) * B))) := by linarith
      _ = n * (2 * (n - 1) ^ 2 * (A * B)) := by ring
      _ ≤ n * (9 * ((n - 2) * (n - 3)) * (A * B)) :=
          mul_le_mul_of_nonneg_left (mul_le_mul_of_nonneg_right h2 hAB) (by linarith)
      _ = _ := by ring
  have T : (∑ i, ∑ j, a i j) * (∑ i, ∑ j, b i j) / (n * ((n - 1) * (n - 2) * (n - 3))) ≤ 6 * (A * B) := by
    rw [div_le_iff₀ (mul_pos (by linarith) (mul_pos (mul_pos (by linarith) n2) n3))]
    have h1 := mul_le_mul (total _ _ sa) (total _ _ sb) (Finset.sum_nonneg fun i _ => sb0 i)
      (mul_nonneg (by linarith) (mul_nonneg n1 hA))
    have h2 : (n : ℝ) * (n - 1) ≤ 6 * ((n - 2) * (n - 3)) := by nlinarith
    calc (∑ i, ∑ j, a i j) * (∑ i, ∑ j, b i j) ≤ n * ((n - 1) * A) * (n * ((n - 1) * B)) := h1
      _ = (n * (n - 1)) * (n * (n - 1)) * (A * B) := by ring
      _ ≤ (n * (n - 1)) * (6 * ((n - 2) * (n - 3))) * (A * B) :=
          mul_le_mul_of_nonneg_right (mul_le_mul_of_nonneg_left h2 (mul_nonneg (by linarith) n1)) hAB
      _ = _ := by ring
  linarith

end Size

/-- The entries of the computed distance matrix. -/
theorem Near.distMat (h : IsFloat64 sqrt sum dot) (x : Fin n → Fin p → ℚ) (i j : Fin n) :
    Near (distErr p) (Spec.distMat 1 (fun i k => (x i k : ℝ)) i j) ((binary64 sqrt sum dot).euclidean x i j : ℚ) := by
  have := Near.euclidean h x i j
  unfold Spec.distMat Spec.dist
  rw [Real.rpow_one]
  exact this

theorem naive_error_biased (h : IsFloat64 sqrt sum dot) (hn : 0 < n) (x : Fin n → Fin p → ℚ) (y : Fin n → Fin q → ℚ)
    {A B : ℝ} (hA : ∀ i j, Spec.distMat 1 (fun i k => (x i k : ℝ)) i j ≤ A)
    (hB : ∀ i j, Spec.distMat 1 (fun i k => (y i k : ℝ)) i j ≤ B) (hK : n ^ 2 + 4 * n + (p + q) / 2 + 16 ≤ 2 ^ 53) :
    |((((binary64 sqrt sum dot).naiveStats false x y).cov : ℚ) : ℝ)
      - Spec.dcovSqr (Spec.distMat 1 (fun i k => (x i k : ℝ))) (Spec.distMat 1 (fun i k => (y i k : ℝ)))|
      ≤ 8 * (n ^ 2 + 4 * n + (p + q) / 2 + 16 : ℕ) * A * B / 2 ^ 53 := by
  have key := fromTerms_near h false (by simpa using hn) (Near.distMat h x) (Near.distMat h y) rfl rfl rfl
  simp only [Bool.false_eq_true, if_false, Int.cast_pow, Int.cast_natCast] at key
  have size := biased_size (fun i j => (Near.distMat h x i j).nonneg) (fun i j => (Near.distMat h y i j).nonneg)
    hA hB hn
  have hpos : (0 : ℝ) ≤ (1 + uRound) ^ (distErr p + distErr q + n * n + 4 * n + 9) - 1 := by
    linarith [one_le_pow₀ (n := distErr p + distErr q + n * n + 4 * n + 9) (by linarith [uRound_pos] : 1 ≤ 1 + uRound)]
  have hle : distErr p + distErr q + n * n + 4 * n + 9 ≤ n ^ 2 + 4 * n + (p + q) / 2 + 16 := by
    unfold distErr
    rw [pow_two]
    omega
  have hA0 : 0 ≤ A := le_trans (Near.distMat h x ⟨0, hn⟩ ⟨0, hn⟩).nonneg (hA _ _)
  have hB0 : 0 ≤ B := le_trans (Near.distMat h y ⟨0, hn⟩ ⟨0, hn⟩).nonneg (hB _ _)
  rw [Spec.dcovSqr_eq_terms _ _ (Spec.distMat_symm 1 _) (Spec.distMat_symm 1 _) hn]
  have e2 : (n : ℝ) * n = n ^ 2 := by ring
  have e3 : (n : ℝ) * n ^ 2 = n ^ 3 := by ring
  have e4 : (n : ℝ) * n ^ 3 = n ^ 4 := by ring
  rw [e2, e3, e4] at key size
  refine le_trans key ?_
  refine le_trans (mul_le_mul_of_nonneg_left size hpos) ?_
  have p1 := pow_le_pow_right₀ (by linarith [uRound_pos] : 1 ≤ 1 + uRound) hle
  have p2 := pow_sub_one_le hK
  have hAB := mul_nonneg hA0 hB0
  calc _ ≤ 2 * ((n ^ 2 + 4 * n + (p + q) / 2 + 16 : ℕ) : ℝ) / 2 ^ 53 * (4 * (A * B)) :=
        mul_le_mul_of_nonneg_right (by linarith) (by linarith)
    _ = _ := by ring

theorem naive_error_unbiased (h : IsFloat64 sqrt sum dot) (hn : 3 < n) (x : Fin n → Fin p → ℚ) (y : Fin n → Fin q → ℚ)
    {A B : ℝ} (hA : ∀ i j, Spec.distMat 1 (fun i k => (x i k : ℝ)) i j ≤ A)
    (hB : ∀ i j, Spec.distMat 1 (fun i k => (y i k : ℝ)) i j ≤ B) (hK : n ^ 2 + 4 * n + (p + q) / 2 + 16 ≤ 2 ^ 53) :
    |((((binary64 sqrt sum dot).naiveStats true x y).cov : ℚ) : ℝ)
      - Spec.uDcovSqr (Spec.distMat 1 (fun i k => (x i k : ℝ))) (Spec.distMat 1 (fun i k => (y i k : ℝ)))|
      ≤ 36 * (n ^ 2 + 4 * n + (p + q) / 2 + 16 : ℕ) * A * B / 2 ^ 53 := by
  have hn0 : 0 < n := by omega
  have key := fromTerms_near h true (by simpa using hn) (Near.distMat h x) (Near.distMat h y) rfl rfl rfl
  simp only [if_true] at key
  push_cast at key
  have size := unbiased_size (fun i j => (Near.distMat h x i j).nonneg) (fun i j => (Near.distMat h y i j).nonneg)
    hA hB hn (Spec.distMat_diag one_ne_zero _) (Spec.distMat_diag one_ne_zero _)
  have hpos : (0 : ℝ) ≤ (1 + uRound) ^ (distErr p + distErr q + n * n + 4 * n + 9) - 1 := by
    linarith [one_le_pow₀ (n := distErr p + distErr q + n * n + 4 * n + 9) (by linarith [uRound_pos] : 1 ≤ 1 + uRound)]
  have hle : distErr p + distErr q + n * n + 4 * n + 9 ≤ n ^ 2 + 4 * n + (p + q) / 2 + 16 := by
    unfold distErr
    rw [pow_two]
    omega
  have hA0 : 0 ≤ A := le_trans (Near.distMat h x ⟨0, hn0⟩ ⟨0, hn0⟩).nonneg (hA _ _)
  have hB0 : 0 ≤ B := le_trans (Near.distMat h y ⟨0, hn0⟩ ⟨0, hn0⟩).nonneg (hB _ _)
  rw [Spec.uDcovSqr_eq_terms _ _ (Spec.distMat_symm 1 _) (Spec.distMat_symm 1 _) (Spec.distMat_diag one_ne_zero _)
    (Spec.distMat_diag one_ne_zero _) hn]
  refine le_trans key ?_
  refine le_trans (mul_le_mul_of_nonneg_left size hpos) ?_
  have p1 := pow_le_pow_right₀ (by linarith [uRound_pos] : 1 ≤ 1 + uRound) hle
  have p2 := pow_sub_one_le hK
  have hAB := mul_nonneg hA0 hB0
  calc _ ≤ 2 * ((n ^ 2 + 4 * n + (p + q) / 2 + 16 : ℕ) : ℝ) / 2 ^ 53 * (18 * (A * B)) :=
        mul_le_mul_of_nonneg_right (by linarith) (by linarith)
    _ = _ := by ring

end Dcor

/-
Forward error analysis for numbers of both signs, in `float64`.
-/
import Verif.Proofs.Float
import Verif.Proofs.Exact
import Mathlib.Algebra.Order.BigOperators.Group.Finset
import Mathlib.Algebra.Order.BigOperators.Group.List
import Mathlib.Tactic.Positivity

namespace Dcor

/-- `(1 + u) ^ k` for the unit roundoff `u` of `float64`. -/
def grow (k : ℕ) : ℚ := (1 + 1 / 2 ^ 53) ^ k

theorem one_le_grow (k : ℕ) : 1 ≤ grow k := one_le_pow₀ (by norm_num)

theorem grow_mono {k l : ℕ} (h : k ≤ l) : grow k ≤ grow l := pow_le_pow_right₀ (by norm_num) h

theorem grow_add (k l : ℕ) : grow (k + l) = grow k * grow l := pow_add _ _ _

theorem grow_one : grow 1 = 1 + 1 / 2 ^ 53 := pow_one _

theorem grow_succ (k : ℕ) : grow (k + 1) = grow k + 1 / 2 ^ 53 * grow k := by rw [grow_add, grow_one]; ring

/-- `r` is the number `q`, of size at most `m`, with the relative error (with respect to `m`) of `k` roundings. -/
structure Err (k : ℕ) (m q r : ℚ) : Prop where
  size : |q| ≤ m
  err : |r - q| ≤ (grow k - 1) * m

namespace Err

variable {k l : ℕ} {m m' q q' r r' : ℚ}

theorem pos (h : Err k m q r) : 0 ≤ m := (abs_nonneg q).trans h.size

theorem le (h : Err k m q r) : |r| ≤ grow k * m := by
  have h1 := h.size
  have h2 := h.err
  have h3 : |r| ≤ |r - q| + |q| := by
    have := abs_add_le (r - q) q
    rwa [sub_add_cancel] at this
  linarith

theorem refl (h : |q| ≤ m) : Err 0 m q q := ⟨h, by simp [grow]⟩

theorem mono (h : Err k m q r) (hk : k ≤ l) (hm : m ≤ m') : Err l m' q r where
  size := h.size.trans hm
  err := h.err.trans (mul_le_mul (by linarith [grow_mono hk]) hm h.pos (by linarith [one_le_grow l]))

theorem round (h : Err k m q r) : Err (k + 1) m q (round64 r) where
  size := h.size
  err := by
    have h1 := round64_err r
    have h2 := h.le
    have h3 := h.err
    have h4 : |round64 r - q| ≤ |round64 r - r| + |r - q| := by
      have := abs_add_le (round64 r - r) (r - q)
      rwa [sub_add_sub_cancel] at this
    rw [grow_succ]
    linarith

theorem neg (h : Err k m q r) : Err k m (-q) (-r) :=
  ⟨by rw [abs_neg]; exact h.size, by rw [neg_sub_neg, abs_sub_comm]; exact h.err⟩

theorem add' (h : Err k m q r) (h' : Err k m' q' r') : Err k (m + m') (q + q') (r + r') where
  size := (abs_add_le _ _).trans (add_le_add h.size h'.size)
  err := by
    rw [add_sub_add_comm, mul_add]
    exact (abs_add_le _ _).trans (add_le_add h.err h'.err)

theorem add (h : Err k m q r) (h' : Err l m' q' r') : Err (max k l + 1) (m + m') (q + q') (round64 (r + r')) :=
  ((h.mono (le_max_left k l) le_rfl).add' (h'.mono (le_max_right k l) le_rfl)).round

theorem sub (h : Err k m q r) (h' : Err l m' q' r') : Err (max k l + 1) (m + m') (q - q') (round64 (r - r')) := by
  rw [sub_eq_add_neg, sub_eq_add_neg]
  exact h.add h'.neg

theorem mul' (h : Err k m q r) (h' : Err l m' q' r') : Err (k + l) (m * m') (q * q') (r * r') where
  size := by rw [abs_mul]; exact mul_le_mul h.size h'.size (abs_nonneg _) h.pos
  err := by
    have e : r * r' - q * q' = r * (r' - q') + (r - q) * q' := by ring
    rw [e]
    refine (abs_add_le _ _).trans ?_
    rw [abs_mul, abs_mul]
    have h1 := mul_le_mul h.le h'.err (abs_nonneg _) (mul_nonneg (by linarith [one_le_grow k]) h.pos)
    have h2 := mul_le_mul h.err h'.size (abs_nonneg _) (mul_nonneg (by linarith [one_le_grow k]) h.pos)
    rw [grow_add]
    linarith

theorem mul (h : Err k m q r) (h' : Err l m' q' r') : Err (k + l + 1) (m * m') (q * q') (round64 (r * r')) :=
  (h.mul' h').round

/-- Multiplication by an integer, which is rounded itself. -/
theorem imul {z : ℤ} {Z : ℚ} (hz : |(z : ℚ)| ≤ Z) (h : Err k m q r) :
    Err (k + 2) (Z * m) (z * q) (round64 (round64 z * r)) := by
  have := ((refl hz).round.mul h)
  rwa [show 0 + 1 + k + 1 = k + 2 by ring] at this

/-- Division by a positive integer that is itself rounded. -/
theorem idiv {z : ℤ} (hz : 0 < z) (h : Err k m q r) : Err (k + 3) (m / z) (q / z) (round64 (r / round64 z)) := by
  have hzq : (0 : ℚ) < z := by exact_mod_cast hz
  have hr := round64_pos hzq
  have herr := abs_le.1 (round64_err (z : ℚ))
  rw [abs_of_pos hzq] at herr
  have hinv : Err 2 (1 / z) (1 / z) (1 / round64 z) := by
    refine ⟨by rw [abs_of_pos (by positivity)], ?_⟩
    have e : 1 / round64 (z : ℚ) - 1 / z = (z - round64 z) / (round64 z * z) := by
      field_simp
    rw [e, abs_div, abs_of_pos (mul_pos hr hzq), div_le_iff₀ (mul_pos hr hzq)]
    have h1 : |(z : ℚ) - round64 z| ≤ z / 2 ^ 53 := abs_le.2 ⟨by linarith [herr.2], by linarith [herr.1]⟩
    refine h1.trans ?_
    have h2 : (grow 2 - 1) * (1 / z) * (round64 z * z) = (grow 2 - 1) * round64 (z : ℚ) := by
      field_simp
    rw [h2]
    have h3 : (1 - 1 / 2 ^ 53) * (z : ℚ) ≤ round64 z := by linarith [herr.1]
    have h4 : (0 : ℚ) ≤ grow 2 - 1 := by linarith [one_le_grow 2]
    refine le_trans ?_ (mul_le_mul_of_nonneg_left h3 h4)
    unfold grow
    norm_num
    linarith
  have := (h.mul' hinv).round
  rwa [mul_one_div, mul_one_div, mul_one_div] at this

end Err

theorem SumsTo.err {l : List ℚ} {r : ℚ} (h : SumsTo l r) : Err l.length (l.map abs).sum l.sum r := by
  induction h with
  | nil => exact ⟨by simp, by simp [grow]⟩
  | single a =>
    have := (Err.refl (le_refl |a|)).mono (Nat.zero_le 1) le_rfl
    simpa using this
  | @add l l' a b hl hl' _ _ ih ih' =>
    have p1 := List.length_pos_of_ne_nil hl
    have p2 := List.length_pos_of_ne_nil hl'
    rw [List.map_append, List.sum_append, List.sum_append]
    exact (ih.add ih').mono (by rw [List.length_append]; omega) le_rfl
  | perm _ hp ih =>
    rw [← hp.sum_eq, ← hp.length_eq, ← (hp.map abs).sum_eq]
    exact ih

theorem DotsTo.err {l : List (ℚ × ℚ)} {r : ℚ} (h : DotsTo l r) :
    Err l.length (l.map fun p => |p.1 * p.2|).sum (l.map fun p => p.1 * p.2).sum r := by
  induction h with
  | nil => exact ⟨by simp, by simp [grow]⟩
  | single a b => simpa using (Err.refl (le_refl |a * b|)).round
  | @fma a b l c hl _ ih =>
    have p1 := List.length_pos_of_ne_nil hl
    rw [List.map_cons, List.map_cons, List.sum_cons, List.sum_cons]
    exact ((Err.refl (le_refl |a * b|)).add ih).mono (by simp) le_rfl
  | @add l l' a b hl hl' _ _ ih ih' =>
    have p1 := List.length_pos_of_ne_nil hl
    have p2 := List.length_pos_of_ne_nil hl'
    rw [List.map_append, List.map_append, List.sum_append, List.sum_append]
    exact (ih.add ih').mono (by rw [List.length_append]; omega) le_rfl
  | perm _ hp ih =>
    rw [← (hp.map _).sum_eq, ← hp.length_eq, ← (hp.map _).sum_eq]
    exact ih

variable {sqrt : ℚ → ℚ} {sum : List ℚ → ℚ} {dot : List (ℚ × ℚ) → ℚ} {n : ℕ}

namespace Err

/-- Error of a computation whose input has errors. -/
theorem comp {k l : ℕ} {m M q s r : ℚ} (h1 : Err k m q s) (h2 : Err l M s r) (hM : M ≤ grow k * m) :
    Err (k + l) m q r where
  size := h1.size
  err := by
    have e : r - q = (r - s) + (s - q) := by ring
    rw [e]
    refine (abs_add_le _ _).trans ?_
    have h3 := h2.err
    have h4 := mul_le_mul_of_nonneg_left hM (show 0 ≤ grow l - 1 by linarith [one_le_grow l])
    rw [grow_add]
    linarith [h1.err]

theorem sum' {k : ℕ} {m : Fin n → ℚ} {v w : Fin n → ℚ} (h : ∀ i, Err k (m i) (v i) (w i)) :
    Err k (∑ i, m i) (∑ i, v i) (∑ i, w i) where
  size := (Finset.abs_sum_le_sum_abs _ _).trans (Finset.sum_le_sum fun i _ => (h i).size)
  err := by
    rw [← Finset.sum_sub_distrib, Finset.mul_sum]
    exact (Finset.abs_sum_le_sum_abs _ _).trans (Finset.sum_le_sum fun i _ => (h i).err)

theorem vsum (hf : IsFloat64 sqrt sum dot) {k : ℕ} {m : ℚ} {v w : Fin n → ℚ} (h : ∀ i, Err k m (v i) (w i)) :
    Err (k + n) (n * m) ((ringArith ℚ).vsum v) ((binary64 sqrt sum dot).vsum w) := by
  have h1 := sum' h
  have h2 := (hf.sum (List.ofFn w)).err
  rw [List.length_ofFn, List.map_ofFn, List.sum_ofFn, List.sum_ofFn] at h2
  simp only [Finset.sum_const, Finset.card_univ, Fintype.card_fin, nsmul_eq_mul] at h1
  rw [ringArith_vsum]
  refine h1.comp h2 ?_
  refine (Finset.sum_le_sum fun i _ => (h i).le).trans ?_
  simp only [Finset.sum_const, Finset.card_univ, Fintype.card_fin, nsmul_eq_mul]
  exact le_of_eq (by ring)

theorem vdot (hf : IsFloat64 sqrt sum dot) {k l : ℕ} {m m' : ℚ} {v w v' w' : Fin n → ℚ}
    (h : ∀ i, Err k m (v i) (w i)) (h' : ∀ i, Err l m' (v' i) (w' i)) :
    Err (k + l + n) (n * (m * m')) ((ringArith ℚ).vdot v v') ((binary64 sqrt sum dot).vdot w w') := by
  have h0 := fun i => (h i).mul' (h' i)
  have h1 := sum' h0
  have h2 := (hf.dot (List.ofFn fun i => (w i, w' i))).err
  rw [List.length_ofFn, List.map_ofFn, List.map_ofFn, List.sum_ofFn, List.sum_ofFn] at h2
  simp only [Finset.sum_const, Finset.card_univ, Fintype.card_fin, nsmul_eq_mul] at h1
  rw [ringArith_vdot]
  refine h1.comp h2 ?_
  refine (Finset.sum_le_sum fun i _ => (h0 i).le).trans ?_
  simp only [Finset.sum_const, Finset.card_univ, Fintype.card_fin, nsmul_eq_mul]
  exact le_of_eq (by ring)

theorem cumsum {k : ℕ} {m : ℚ} {v w : Fin n → ℚ} (h : ∀ i, Err k m (v i) (w i)) (j : Fin n) :
    Err (k + n) (n * m) ((ringArith ℚ).cumsum v j) ((binary64 sqrt sum dot).cumsum w j) := by
  have key : ∀ (i : ℕ) (hi : i < n), Err (k + i) ((i + 1 : ℕ) * m) ((ringArith ℚ).cumsumAt v i hi)
      ((binary64 sqrt sum dot).cumsumAt w i hi) := by
    intro i
    induction i with
    | zero =>
      intro hi
      have := h ⟨0, hi⟩
      simp only [Nat.add_zero, Nat.zero_add, Nat.cast_one, one_mul]
      exact this
    | succ i ih =>
      intro hi
      have := (ih (by omega)).add (h ⟨i + 1, hi⟩)
      refine this.mono (by omega) (le_of_eq ?_)
      push_cast
      ring
  have hm := (h j).pos
  refine (key j j.2).mono (by have := j.2; omega) (mul_le_mul_of_nonneg_right ?_ hm)
  exact_mod_cast j.2

end Err

end Dcor

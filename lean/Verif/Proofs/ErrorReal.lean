/-
Forward error analysis of real numbers of both signs that are approximated in `float64`.
-/
import Verif.Proofs.ErrorBound
import Verif.Proofs.ErrorSigned
import Verif.Proofs.RoundingEnergy
import Verif.Model.RoundingTests

namespace Dcor

/-- `r` approximates the real number `q`, of size at most `m`, with the relative error (with respect to `m`) of `k`
roundings. -/
structure ErrR (k : ℕ) (m q : ℝ) (r : ℚ) : Prop where
  size : |q| ≤ m
  err : |(r : ℝ) - q| ≤ ((1 + uRound) ^ k - 1) * m

theorem one_le_up (k : ℕ) : 1 ≤ (1 + uRound) ^ k := one_le_pow₀ (by linarith [uRound_pos])

theorem up_mono {k l : ℕ} (h : k ≤ l) : (1 + uRound) ^ k ≤ (1 + uRound) ^ l :=
  pow_le_pow_right₀ (by linarith [uRound_pos]) h

theorem cast_grow (k : ℕ) : ((grow k : ℚ) : ℝ) = (1 + uRound) ^ k := by
  unfold grow uRound
  push_cast
  rfl

namespace ErrR

variable {k l : ℕ} {m m' q q' : ℝ} {r r' : ℚ}

theorem pos (h : ErrR k m q r) : 0 ≤ m := (abs_nonneg q).trans h.size

theorem ofErr {m q r : ℚ} (h : Err k m q r) : ErrR k m q r where
  size := by exact_mod_cast h.size
  err := by
    have := h.err
    rw [← cast_grow]
    exact_mod_cast this

theorem ofNear {a : ℝ} {b : ℚ} (h : Near k a b) (ha : a ≤ m) : ErrR k m a b where
  size := by rw [abs_of_nonneg h.nonneg]; exact ha
  err := by
    have hu := uRound_pos
    have hu' := uRound_lt
    have h1 := one_add_mul_le_pow (a := -uRound) (by linarith) k
    have h2 := one_add_mul_le_pow (a := uRound) (by linarith) k
    rw [← sub_eq_add_neg] at h1
    have h3 := h.lower
    have h4 := h.upper
    have h5 := one_le_up k
    have h6 : ((1 + uRound) ^ k - 1) * a ≤ ((1 + uRound) ^ k - 1) * m := mul_le_mul_of_nonneg_left ha (by linarith)
    refine le_trans ?_ h6
    have h7 := mul_le_mul_of_nonneg_right (show 2 - (1 + uRound) ^ k ≤ (1 - uRound) ^ k by linarith) h.nonneg
    rw [abs_le]
    constructor <;> nlinarith

theorem le (h : ErrR k m q r) : |(r : ℝ)| ≤ (1 + uRound) ^ k * m := by
  have h1 := h.size
  have h2 := h.err
  have h3 : |(r : ℝ)| ≤ |(r : ℝ) - q| + |q| := by
    have := abs_add_le ((r : ℝ) - q) q
    rwa [sub_add_cancel] at this
  linarith

theorem refl (h : |(r : ℝ)| ≤ m) : ErrR 0 m r r := ⟨h, by simp⟩

theorem mono (h : ErrR k m q r) (hk : k ≤ l) (hm : m ≤ m') : ErrR l m' q r where
  size := h.size.trans hm
  err := h.err.trans (mul_le_mul (by linarith [up_mono hk]) hm h.pos (by linarith [one_le_up l]))

theorem round (h : ErrR k m q r) : ErrR (k + 1) m q (round64 r) where
  size := h.size
  err := by
    have h1 : |((round64 r : ℚ) : ℝ) - r| ≤ |(r : ℝ)| * uRound := by
      have := round64_err r
      unfold uRound
      rw [mul_one_div]
      exact_mod_cast this
    have h2 := mul_le_mul_of_nonneg_right h.le uRound_pos.le
    have h3 := h.err
    have h4 : |((round64 r : ℚ) : ℝ) - q| ≤ |((round64 r : ℚ) : ℝ) - r| + |(r : ℝ) - q| := by
      have := abs_add_le (((round64 r : ℚ) : ℝ) - r) ((r : ℝ) - q)
      rwa [sub_add_sub_cancel] at this
    rw [pow_succ]
    linarith

theorem neg (h : ErrR k m q r) : ErrR k m (-q) (-r) :=
  ⟨by rw [abs_neg]; exact h.size, by push_cast; rw [neg_sub_neg, abs_sub_comm]; exact h.err⟩

theorem add' (h : ErrR k m q r) (h' : ErrR k m' q' r') : ErrR k (m + m') (q + q') (r + r') where
  size := (abs_add_le _ _).trans (add_le_add h.size h'.size)
  err := by
    push_cast
    rw [add_sub_add_comm, mul_add]
    exact (abs_add_le _ _).trans (add_le_add h.err h'.err)

theorem add (h : ErrR k m q r) (h' : ErrR l m' q' r') : ErrR (max k l + 1) (m + m') (q + q') (round64 (r + r')) :=
  ((h.mono (le_max_left k l) le_rfl).add' (h'.mono (le_max_right k l) le_rfl)).round

theorem sub (h : ErrR k m q r) (h' : ErrR l m' q' r') : ErrR (max k l + 1) (m + m') (q - q') (round64 (r - r')) := by
  rw [sub_eq_add_neg, sub_eq_add_neg]
  exact h.add h'.neg

theorem mul' (h : ErrR k m q r) (h' : ErrR l m' q' r') : ErrR (k + l) (m * m') (q * q') (r * r') where
  size := by rw [abs_mul]; exact mul_le_mul h.size h'.size (abs_nonneg _) h.pos
  err := by
    push_cast
    have e : (r : ℝ) * r' - q * q' = r * (r' - q') + (r - q) * q' := by ring
    rw [e]
    refine (abs_add_le _ _).trans ?_
    rw [abs_mul, abs_mul]
    have h1 := mul_le_mul h.le h'.err (abs_nonneg _) (mul_nonneg (by linarith [one_le_up k]) h.pos)
    have h2 := mul_le_mul h.err h'.size (abs_nonneg _) (mul_nonneg (by linarith [one_le_up k]) h.pos)
    rw [pow_add]
    linarith

theorem mul (h : ErrR k m q r) (h' : ErrR l m' q' r') : ErrR (k + l + 1) (m * m') (q * q') (round64 (r * r')) :=
  (h.mul' h').round

/-- Multiplication by a natural number, which is rounded itself. -/
theorem imul {z : ℕ} (h : ErrR k m q r) : ErrR (k + 2) (z * m) (z * q) (round64 (round64 ((z : ℤ) : ℚ) * r)) := by
  have hz : ErrR 0 (z : ℝ) (((z : ℤ) : ℚ) : ℝ) ((z : ℤ) : ℚ) := ErrR.refl (by simp)
  have := hz.round.mul h
  rw [show 0 + 1 + k + 1 = k + 2 by ring] at this
  have e : ((((z : ℤ) : ℚ) : ℚ) : ℝ) = (z : ℝ) := by simp
  rwa [e] at this

/-- Division by a positive integer that is itself rounded. -/
theorem idiv {z : ℤ} (hz : 0 < z) (h : ErrR k m q r) : ErrR (k + 3) (m / z) (q / z) (round64 (r / round64 z)) := by
  have hzq : (0 : ℚ) < z := by exact_mod_cast hz
  have hr := round64_pos hzq
  have herr := abs_le.1 (round64_err (z : ℚ))
  rw [abs_of_pos hzq] at herr
  have hinv : Err 2 (1 / z) (1 / z) (1 / round64 z) := by
    refine ⟨by rw [abs_of_pos (by positivity)], ?_⟩
    have e : 1 / round64 (z : ℚ) - 1 / z = (z - round64 z) / (round64 z * z) := by
      field_simp
    rw [e, abs_div, abs_of_pos (mul_pos hr hzq), div_le_iff₀ (mul_pos hr hzq)]
    have h1 : |(z : ℚ) - round64 z| ≤ z / 2 ^ 53 := abs_le.2 ⟨by linarith [herr.2], by linarith [herr.1]⟩
    refine h1.trans ?_
    have h2 : (grow 2 - 1) * (1 / z) * (round64 z * z) = (grow 2 - 1) * round64 (z : ℚ) := by
      field_simp
    rw [h2]
    have h3 : (1 - 1 / 2 ^ 53) * (z : ℚ) ≤ round64 z := by linarith [herr.1]
    have h4 : (0 : ℚ) ≤ grow 2 - 1 := by linarith [one_le_grow 2]
    refine le_trans ?_ (mul_le_mul_of_nonneg_left h3 h4)
    unfold grow
    norm_num
    linarith
  have := (h.mul' (ofErr hinv)).round
  push_cast at this
  rwa [mul_one_div, mul_one_div, mul_one_div] at this

/-- The error in terms of the number of roundings. -/
theorem bound (h : ErrR k m q r) (hk : k ≤ 2 ^ 53) : |(r : ℝ) - q| ≤ 2 * k * m / 2 ^ 53 := by
  refine h.err.trans ((mul_le_mul_of_nonneg_right (pow_sub_one_le hk) h.pos).trans (le_of_eq ?_))
  ring

end ErrR

/-- A sum of approximations, in any order. -/
theorem SumsTo.errR {ι : Type} {k : ℕ} {L : List ι} {f : ι → ℚ} {q m : ι → ℝ} {r : ℚ} (hs : SumsTo (L.map f) r)
    (h : ∀ i ∈ L, ErrR k (m i) (q i) (f i)) : ErrR (k + L.length) (L.map m).sum (L.map q).sum r := by
  have h0 := ErrR.ofErr hs.err
  rw [List.length_map] at h0
  have hsum : ∀ L : List ι, (∀ i ∈ L, ErrR k (m i) (q i) (f i)) →
      ErrR k (L.map m).sum (L.map q).sum (L.map f).sum ∧
        ((((L.map f).map abs).sum : ℚ) : ℝ) ≤ (1 + uRound) ^ k * (L.map m).sum := by
    intro L
    induction L with
    | nil => intro _; exact ⟨⟨by simp, by simp⟩, by simp⟩
    | cons i L ih =>
      intro h
      obtain ⟨h1, h2⟩ := ih fun j hj => h j (List.mem_cons_of_mem i hj)
      have h3 := h i (List.mem_cons_self)
      simp only [List.map_cons, List.sum_cons]
      refine ⟨h3.add' h1, ?_⟩
      rw [Rat.cast_add, Rat.cast_abs]
      have := h3.le
      linarith
  obtain ⟨h1, h2⟩ := hsum L h
  refine ⟨h1.size, ?_⟩
  have h3 := h0.err
  have h4 := h1.err
  have h5 : |(r : ℝ) - (L.map q).sum| ≤ |(r : ℝ) - (((L.map f).sum : ℚ) : ℝ)| + |(((L.map f).sum : ℚ) : ℝ) - (L.map q).sum| := by
    have := abs_add_le ((r : ℝ) - (((L.map f).sum : ℚ) : ℝ)) ((((L.map f).sum : ℚ) : ℝ) - (L.map q).sum)
    rwa [sub_add_sub_cancel] at this
  have h6 := mul_le_mul_of_nonneg_left h2 (show 0 ≤ (1 + uRound) ^ L.length - 1 by linarith [one_le_up L.length])
  rw [pow_add]
  nlinarith

variable {sqrt : ℚ → ℚ} {sum : List ℚ → ℚ} {dot : List (ℚ × ℚ) → ℚ} {n p q : ℕ}

local notation "B" => binary64 sqrt sum dot

theorem ErrR.vsum (h : IsFloat64 sqrt sum dot) {k : ℕ} {f : Fin n → ℚ} {Q m : Fin n → ℝ}
    (hf : ∀ i, ErrR k (m i) (Q i) (f i)) : ErrR (k + n) (∑ i, m i) (∑ i, Q i) (Arith.vsum B f) := by
  have e : List.ofFn f = (List.finRange n).map f := List.ofFn_eq_map
  have hs : SumsTo ((List.finRange n).map f) (Arith.vsum B f) := by
    rw [← e]
    exact h.sum _
  have := hs.errR fun i _ => hf i
  rw [List.length_finRange] at this
  have s : ∀ g : Fin n → ℝ, ((List.finRange n).map g).sum = ∑ i, g i := by
    intro g
    rw [← List.ofFn_eq_map, List.sum_ofFn]
  rwa [s, s] at this

/-- The sum of all products of the elements of two matrices. -/
theorem ErrR.products (h : IsFloat64 sqrt sum dot) {k l : ℕ} {a b : Fin n → Fin n → ℚ} {P Q m m' : Fin n → Fin n → ℝ}
    (ha : ∀ i j, ErrR k (m i j) (P i j) (a i j)) (hb : ∀ i j, ErrR l (m' i j) (Q i j) (b i j)) :
    ErrR (k + l + 1 + n ^ 2) (∑ i, ∑ j, m i j * m' i j) (∑ i, ∑ j, P i j * Q i j) (sum (Arith.products B a b)) := by
  unfold Arith.products
  rw [flatAll_eq]
  have := (h.sum ((allPairs n n).map fun ij => Arith.mul B (a ij.1 ij.2) (b ij.1 ij.2))).errR
    (q := fun ij => P ij.1 ij.2 * Q ij.1 ij.2) (m := fun ij => m ij.1 ij.2 * m' ij.1 ij.2) (k := k + l + 1)
    fun ij _ => (ha ij.1 ij.2).mul (hb ij.1 ij.2)
  rw [length_allPairs, sum_allPairs fun i j => P i j * Q i j, sum_allPairs fun i j => m i j * m' i j, ← sq] at this
  exact this

theorem ErrR.meanProduct (h : IsFloat64 sqrt sum dot) (hn : 0 < n) {k l : ℕ} {a b : Fin n → Fin n → ℚ}
    {P Q : Fin n → Fin n → ℝ} {M M' : ℝ} (ha : ∀ i j, ErrR k M (P i j) (a i j)) (hb : ∀ i j, ErrR l M' (Q i j) (b i j)) :
    ErrR (k + l + n ^ 2 + 4) (M * M') ((∑ i, ∑ j, P i j * Q i j) / n ^ 2) (Arith.meanProduct B a b) := by
  have h1 := ErrR.products h ha hb
  have hlen : (Arith.products B a b).length = n ^ 2 := by
    unfold Arith.products
    rw [flatAll_eq, List.length_map, length_allPairs, sq]
  have hz : (0 : ℤ) < ((n ^ 2 : ℕ) : ℤ) := by exact_mod_cast pow_pos hn 2
  have h2 := h1.idiv hz
  have e : Arith.meanProduct B a b = round64 (sum (Arith.products B a b) / round64 (((n ^ 2 : ℕ) : ℤ) : ℚ)) := by
    unfold Arith.meanProduct Arith.mean
    rw [hlen]
    rfl
  rw [e]
  have hn' : (n : ℝ) ≠ 0 := by positivity
  refine ErrR.mono (m := (∑ _i : Fin n, ∑ _j : Fin n, M * M') / (((n ^ 2 : ℕ) : ℤ) : ℝ)) ?_ (by omega :
    k + l + 1 + n ^ 2 + 3 ≤ k + l + n ^ 2 + 4) ?_
  · have e2 : (((n ^ 2 : ℕ) : ℤ) : ℝ) = (n : ℝ) ^ 2 := by push_cast; rfl
    rw [e2] at h2 ⊢
    exact h2
  · rw [Finset.sum_const, Finset.sum_const, Finset.card_univ, Fintype.card_fin]
    push_cast
    rw [nsmul_eq_mul, nsmul_eq_mul]
    apply le_of_eq
    field_simp

/-- The entries of the double-centred matrix of a symmetric matrix. -/
theorem ErrR.doubleCentered (h : IsFloat64 sqrt sum dot) (hn : 0 < n) {k : ℕ} {a : Fin n → Fin n → ℚ} {Q : Fin n → Fin n → ℝ}
    {A : ℝ} (hs : ∀ i j, Q i j = Q j i) (ha : ∀ i j, ErrR k A (Q i j) (a i j)) (i j : Fin n) :
    ErrR (k + 2 * n + 6) (4 * A) (Spec.centre Q i j) (Arith.doubleCentered B a i j) := by
  have hz : (0 : ℤ) < (n : ℤ) := by exact_mod_cast hn
  have hn' : (n : ℝ) ≠ 0 := by positivity
  have hrow : ∀ i, ErrR (k + n) (n * A) (∑ j, Q i j) (Arith.axisSum B a i) := by
    intro i
    have := ErrR.vsum h (ha i)
    rwa [Finset.sum_const, Finset.card_univ, Fintype.card_fin, nsmul_eq_mul] at this
  have hmean : ∀ i, ErrR (k + n + 3) A ((∑ j, Q i j) / n) (Arith.idiv B (Arith.axisSum B a i) n) := by
    intro i
    have := (hrow i).idiv hz
    rw [Int.cast_natCast, mul_div_cancel_left₀ _ hn'] at this
    exact this
  have htot : ErrR (k + n + n + 3) A ((∑ i, ∑ j, Q i j) / n ^ 2) (Arith.idiv B (Arith.vsum B (Arith.axisSum B a)) ((n : ℤ) ^ 2)) := by
    have := (ErrR.vsum h hrow).idiv (z := (n : ℤ) ^ 2) (by positivity)
    rw [Finset.sum_const, Finset.card_univ, Fintype.card_fin, nsmul_eq_mul] at this
    push_cast at this
    have e : (n : ℝ) * (n * A) / n ^ 2 = A := by field_simp
    rw [e] at this
    exact this
  have e : Spec.centre Q i j = Q i j - (∑ k, Q j k) / n - (∑ k, Q i k) / n + (∑ k, ∑ l, Q k l) / n ^ 2 := by
    unfold Spec.centre
    simp only [hs _ j]
    ring
  rw [e]
  have := (((ha i j).sub (hmean j)).sub (hmean i)).add htot
  exact this.mono (by omega) (by linarith)

/-- The entries of the U-centred matrix of a symmetric matrix with zero diagonal. -/
theorem ErrR.uCentered (h : IsFloat64 sqrt sum dot) (hn : 3 < n) {k : ℕ} {a : Fin n → Fin n → ℚ} {Q : Fin n → Fin n → ℝ}
    {A : ℝ} (hs : ∀ i j, Q i j = Q j i) (ha : ∀ i j, ErrR k (if i = j then 0 else A) (Q i j) (a i j)) (i j : Fin n) :
    ErrR (k + 2 * n + 6) (if i = j then 0 else 6 * A) (Spec.uCentre Q i j) (Arith.uCentered B a i j) := by
  have hn4 : (4 : ℝ) ≤ n := by exact_mod_cast hn
  have hA : 0 ≤ A := by
    have h0 : (⟨0, by omega⟩ : Fin n) ≠ ⟨1, by omega⟩ := by simp
    have := (ha ⟨0, by omega⟩ ⟨1, by omega⟩).pos
    rwa [if_neg h0] at this
  have hsum : ∀ i : Fin n, ∑ j, (if i = j then 0 else A) = (n - 1) * A := by
    intro i
    have e : ∀ j : Fin n, (if i = j then 0 else A) = A - if i = j then A else 0 := by
      intro j
      split_ifs <;> ring
    simp only [e, Finset.sum_sub_distrib, Finset.sum_ite_eq, Finset.mem_univ, if_true, Finset.sum_const, Finset.card_univ,
      Fintype.card_fin, nsmul_eq_mul]
    ring
  have hrow : ∀ i, ErrR (k + n) ((n - 1) * A) (∑ j, Q i j) (Arith.axisSum B a i) := by
    intro i
    have := ErrR.vsum h (ha i)
    rwa [hsum] at this
  have hmean : ∀ i, ErrR (k + n + 3) (3 / 2 * A) ((∑ j, Q i j) / (n - 2)) (Arith.idiv B (Arith.axisSum B a i) ((n : ℤ) - 2)) := by
    intro i
    have := (hrow i).idiv (z := (n : ℤ) - 2) (by omega)
    rw [show (((n : ℤ) - 2 : ℤ) : ℝ) = n - 2 by push_cast; rfl] at this
    refine ErrR.mono this le_rfl ?_
    rw [div_le_iff₀ (by linarith)]
    nlinarith
  have htot : ErrR (k + n + n + 3) (2 * A) ((∑ i, ∑ j, Q i j) / ((n - 1) * (n - 2)))
      (Arith.idiv B (Arith.vsum B (Arith.axisSum B a)) (((n : ℤ) - 1) * ((n : ℤ) - 2))) := by
    have := (ErrR.vsum h hrow).idiv (z := ((n : ℤ) - 1) * ((n : ℤ) - 2)) (mul_pos (by omega) (by omega))
    rw [Finset.sum_const, Finset.card_univ, Fintype.card_fin, nsmul_eq_mul] at this
    rw [show ((((n : ℤ) - 1) * ((n : ℤ) - 2) : ℤ) : ℝ) = (n - 1) * (n - 2) by push_cast; rfl] at this
    refine ErrR.mono this le_rfl ?_
    have h1 : (0 : ℝ) < n - 1 := by linarith
    have h2 : (0 : ℝ) < n - 2 := by linarith
    rw [div_le_iff₀ (mul_pos h1 h2)]
    have : (n : ℝ) * ((n - 1) * A) = n * ((n - 1) * A) := rfl
    nlinarith [mul_nonneg h1.le hA, mul_nonneg (mul_nonneg h1.le hA) (show (0 : ℝ) ≤ n - 4 by linarith)]
  unfold Spec.uCentre Arith.uCentered
  dsimp only
  split_ifs with hij
  · refine ⟨by simp, ?_⟩
    show |((round64 ((0 : ℤ) : ℚ) : ℚ) : ℝ) - 0| ≤ _
    rw [Int.cast_zero, round64_zero]
    simp
  · have hij' := ha i j
    rw [if_neg hij] at hij'
    have e : Q i j - (∑ k, Q i k) / (n - 2) - (∑ k, Q k j) / (n - 2) + (∑ k, ∑ l, Q k l) / ((n - 1) * (n - 2))
        = Q i j - (∑ k, Q j k) / (n - 2) - (∑ k, Q i k) / (n - 2) + (∑ k, ∑ l, Q k l) / ((n - 1) * (n - 2)) := by
      simp only [hs _ j]
      ring
    rw [e]
    have := ((hij'.sub (hmean j)).sub (hmean i)).add htot
    exact this.mono (by omega) (by linarith)

/-- The product of two matrices with zero diagonal. -/
theorem ErrR.uProduct (h : IsFloat64 sqrt sum dot) (hn : 3 < n) {k l : ℕ} {a b : Fin n → Fin n → ℚ} {P Q : Fin n → Fin n → ℝ}
    {M M' : ℝ} (ha : ∀ i j, ErrR k (if i = j then 0 else M) (P i j) (a i j))
    (hb : ∀ i j, ErrR l (if i = j then 0 else M') (Q i j) (b i j)) :
    ErrR (k + l + n ^ 2 + 4) (3 * (M * M')) (Spec.uInner P Q) (Arith.uProduct B a b) := by
  have hn4 : (4 : ℝ) ≤ n := by exact_mod_cast hn
  have h1 := (ErrR.products h ha hb).idiv (z := (n : ℤ) * ((n : ℤ) - 3)) (mul_pos (by omega) (by omega))
  have h0 : (⟨0, by omega⟩ : Fin n) ≠ ⟨1, by omega⟩ := by simp
  have hM : 0 ≤ M * M' := by
    have m1 := (ha ⟨0, by omega⟩ ⟨1, by omega⟩).pos
    have m2 := (hb ⟨0, by omega⟩ ⟨1, by omega⟩).pos
    rw [if_neg h0] at m1 m2
    exact mul_nonneg m1 m2
  have hsum : ∀ i : Fin n, ∑ j, (if i = j then 0 else M) * (if i = j then 0 else M') = (n - 1) * (M * M') := by
    intro i
    have e : ∀ j : Fin n, (if i = j then 0 else M) * (if i = j then 0 else M') = M * M' - if i = j then M * M' else 0 := by
      intro j
      split_ifs <;> ring
    simp only [e, Finset.sum_sub_distrib, Finset.sum_ite_eq, Finset.mem_univ, if_true, Finset.sum_const, Finset.card_univ,
      Fintype.card_fin, nsmul_eq_mul]
    ring
  have hP : ∀ i, P i i = 0 := by
    intro i
    have := (ha i i).size
    rw [if_pos rfl] at this
    exact abs_eq_zero.1 (le_antisymm this (abs_nonneg _))
  have e : Spec.uInner P Q = (∑ i, ∑ j, P i j * Q i j) / (n * (n - 3)) := by
    unfold Spec.uInner
    congr 1
    apply Finset.sum_congr rfl
    intro i _
    rw [Finset.sum_filter]
    apply Finset.sum_congr rfl
    intro j _
    split_ifs with hji
    · rfl
    · rw [not_not] at hji
      rw [hji, hP, zero_mul]
  rw [e]
  simp only [hsum] at h1
  rw [Finset.sum_const, Finset.card_univ, Fintype.card_fin, nsmul_eq_mul] at h1
  rw [show (((n : ℤ) * ((n : ℤ) - 3) : ℤ) : ℝ) = n * (n - 3) by push_cast; rfl] at h1
  refine ErrR.mono h1 (by omega) ?_
  have h3 : (0 : ℝ) < n - 3 := by linarith
  rw [div_le_iff₀ (mul_pos (by linarith) h3)]
  nlinarith [mul_nonneg (show (0 : ℝ) ≤ n by linarith) hM,
    mul_nonneg (mul_nonneg (show (0 : ℝ) ≤ n by linarith) hM) (show (0 : ℝ) ≤ n - 4 by linarith)]

end Dcor

/-
Forward error analysis of the AVL method on `float32` samples. A rounding to 24 bits counts as `2 ^ 29` roundings to 53 bits.
-/
import Verif.Proofs.Round32
import Verif.Proofs.ErrorAvl

namespace Dcor

variable {sqrt : ℚ → ℚ} {sum sum32 : List ℚ → ℚ} {dot : List (ℚ × ℚ) → ℚ} {n : ℕ}

/-- How many roundings to 53 bits a rounding to 24 bits counts as. -/
def unit32 : ℕ := 2 ^ 29

theorem unit32_cast : (unit32 : ℚ) = 2 ^ 29 := by
  unfold unit32
  norm_num

theorem unit32_pos : 1 ≤ unit32 := by
  have : (1 : ℚ) ≤ unit32 := by rw [unit32_cast]; norm_num
  exact_mod_cast this

theorem grow_single : 1 / 2 ^ 24 ≤ grow unit32 - 1 := by
  have h := one_add_mul_le_pow (a := (1 / 2 ^ 53 : ℚ)) (by norm_num) unit32
  have e : (1 : ℚ) + (unit32 : ℚ) * (1 / 2 ^ 53) = 1 + 1 / 2 ^ 24 := by rw [unit32_cast]; norm_num
  rw [e] at h
  have h' : (1 : ℚ) + 1 / 2 ^ 24 ≤ grow unit32 := by
    rw [grow]
    exact h
  linarith

attribute [irreducible] unit32

/-- `r` is `q` up to `k` roundings to 24 bits, relative to `m`. -/
def ErrS (k : ℕ) (m q r : ℚ) : Prop := Err (unit32 * k) m q r

namespace ErrS

variable {k l : ℕ} {m m' q q' r r' : ℚ}

theorem toErr (h : ErrS k m q r) : Err (unit32 * k) m q r := h

theorem pos (h : ErrS k m q r) : 0 ≤ m := h.toErr.pos

theorem le (h : ErrS k m q r) : |r| ≤ grow (unit32 * k) * m := h.toErr.le

theorem mono (h : ErrS k m q r) (hk : k ≤ l) (hm : m ≤ m') : ErrS l m' q r :=
  Err.mono h.toErr (Nat.mul_le_mul_left _ hk) hm

theorem refl (h : |q| ≤ m) : ErrS k m q q := (Err.refl h).mono (Nat.zero_le _) le_rfl

theorem neg (h : ErrS k m q r) : ErrS k m (-q) (-r) := h.toErr.neg

theorem of_double {j : ℕ} (hk : j ≤ unit32 * k + 3) (h : Err j m q r) : ErrS (k + 3) m q r := by
  refine Err.mono h ?_ le_rfl
  have := unit32_pos
  rw [Nat.mul_add]
  omega

/-- A rounding to 53 bits counts as well. -/
theorem round_double (h : ErrS k m q r) : ErrS (k + 1) m q (round64 r) := by
  refine Err.mono h.toErr.round ?_ le_rfl
  have := unit32_pos
  rw [Nat.mul_add]
  omega

theorem round_single (h : ErrS k m q r) : ErrS (k + 1) m q (round32 r) := by
  unfold ErrS
  rw [Nat.mul_add, Nat.mul_one]
  refine ⟨h.toErr.size, ?_⟩
  have h1 := round32_err r
  have h2 := h.le
  have h3 := h.toErr.err
  have h4 : |round32 r - q| ≤ |round32 r - r| + |r - q| := by
    have := abs_add_le (round32 r - r) (r - q)
    rwa [sub_add_sub_cancel] at this
  have h5 := mul_le_mul_of_nonneg_right grow_single (abs_nonneg r)
  have h6 := mul_le_mul_of_nonneg_left h2 (show 0 ≤ grow unit32 - 1 by linarith [one_le_grow unit32])
  rw [grow_add]
  have e : (grow (unit32 * k) * grow unit32 - 1) * m
      = (grow unit32 - 1) * (grow (unit32 * k) * m) + (grow (unit32 * k) - 1) * m := by ring
  rw [e]
  have h7 : |r| / 2 ^ 24 = 1 / 2 ^ 24 * |r| := by ring
  linarith

theorem add' (h : ErrS k m q r) (h' : ErrS l m' q' r') : ErrS (max k l) (m + m') (q + q') (r + r') :=
  (h.mono (le_max_left k l) le_rfl).toErr.add' (h'.mono (le_max_right k l) le_rfl).toErr

theorem mul' (h : ErrS k m q r) (h' : ErrS l m' q' r') : ErrS (k + l) (m * m') (q * q') (r * r') := by
  have := h.toErr.mul' h'.toErr
  rwa [← Nat.mul_add] at this

theorem add (h : ErrS k m q r) (h' : ErrS l m' q' r') : ErrS (max k l + 1) (m + m') (q + q') (round64 (r + r')) :=
  (h.add' h').round_double

theorem sub (h : ErrS k m q r) (h' : ErrS l m' q' r') : ErrS (max k l + 1) (m + m') (q - q') (round64 (r - r')) := by
  rw [sub_eq_add_neg, sub_eq_add_neg]
  exact h.add h'.neg

theorem mul (h : ErrS k m q r) (h' : ErrS l m' q' r') : ErrS (k + l + 1) (m * m') (q * q') (round64 (r * r')) :=
  (h.mul' h').round_double

theorem imul {z : ℤ} {Z : ℚ} (hz : |(z : ℚ)| ≤ Z) (h : ErrS k m q r) :
    ErrS (k + 2) (Z * m) (z * q) (round64 (round64 z * r)) :=
  ((refl (k := 0) hz).round_double.mul h).mono (by omega) le_rfl

theorem idiv {z : ℤ} (hz : 0 < z) (h : ErrS k m q r) :
    ErrS (k + 3) (m / z) (q / z) (round64 (r / round64 z)) :=
  of_double (by omega) (Err.idiv hz h.toErr)

theorem add_single (h : ErrS k m q r) (h' : ErrS l m' q' r') :
    ErrS (max k l + 1) (m + m') (q + q') (round32 (r + r')) :=
  (h.add' h').round_single

theorem sub_single (h : ErrS k m q r) (h' : ErrS l m' q' r') :
    ErrS (max k l + 1) (m + m') (q - q') (round32 (r - r')) := by
  rw [sub_eq_add_neg, sub_eq_add_neg]
  exact h.add_single h'.neg

theorem mul_single (h : ErrS k m q r) (h' : ErrS l m' q' r') :
    ErrS (k + l + 1) (m * m') (q * q') (round32 (r * r')) :=
  (h.mul' h').round_single

theorem imul_single {z : ℤ} {Z : ℚ} (hz : |(z : ℚ)| ≤ Z) (h : ErrS k m q r) :
    ErrS (k + 2) (Z * m) (z * q) (round32 (round32 z * r)) :=
  ((refl (k := 0) hz).round_single.mul_single h).mono (by omega) le_rfl

theorem idiv_single {z : ℤ} (hz : 0 < z) (h : ErrS k m q r) :
    ErrS (k + 3) (m / z) (q / z) (round32 (r / round32 z)) := by
  have hzq : (0 : ℚ) < z := by exact_mod_cast hz
  have hr := round32_pos hzq
  have herr := abs_le.1 (round32_err (z : ℚ))
  rw [abs_of_pos hzq] at herr
  have hinv : ErrS 2 (1 / z) (1 / z) (1 / round32 z) := by
    refine ⟨by rw [abs_of_pos (by positivity)], ?_⟩
    have e : 1 / round32 (z : ℚ) - 1 / z = (z - round32 z) / (round32 z * z) := by
      field_simp
    rw [e, abs_div, abs_of_pos (mul_pos hr hzq), div_le_iff₀ (mul_pos hr hzq)]
    have h1 : |(z : ℚ) - round32 z| ≤ z / 2 ^ 24 := abs_le.2 ⟨by linarith [herr.2], by linarith [herr.1]⟩
    refine h1.trans ?_
    have h2 : (grow (unit32 * 2) - 1) * (1 / z) * (round32 z * z) = (grow (unit32 * 2) - 1) * round32 (z : ℚ) := by
      field_simp
    rw [h2]
    have h3 : (1 - 1 / 2 ^ 24) * (z : ℚ) ≤ round32 z := by linarith [herr.1]
    have g : (1 + 1 / 2 ^ 24 : ℚ) ^ 2 ≤ grow (unit32 * 2) := by
      rw [Nat.mul_two, grow_add, sq]
      have := grow_single
      exact mul_le_mul (by linarith) (by linarith) (by norm_num) (by linarith [one_le_grow unit32])
    have h4 : (2 / 2 ^ 24 : ℚ) ≤ grow (unit32 * 2) - 1 := by
      have : (1 + 1 / 2 ^ 24 : ℚ) ^ 2 = 1 + 2 / 2 ^ 24 + 1 / 2 ^ 48 := by norm_num
      rw [this] at g
      have : (0 : ℚ) < 1 / 2 ^ 48 := by norm_num
      linarith
    calc (z : ℚ) / 2 ^ 24 ≤ 2 / 2 ^ 24 * ((1 - 1 / 2 ^ 24) * z) := by
          have : (2 / 2 ^ 24 * ((1 - 1 / 2 ^ 24) * z) : ℚ) = z / 2 ^ 24 + z * (1 / 2 ^ 24 - 2 / 2 ^ 48) := by ring
          rw [this]
          have : (0 : ℚ) ≤ z * (1 / 2 ^ 24 - 2 / 2 ^ 48) := mul_nonneg hzq.le (by norm_num)
          linarith
      _ ≤ 2 / 2 ^ 24 * round32 z := mul_le_mul_of_nonneg_left h3 (by norm_num)
      _ ≤ _ := mul_le_mul_of_nonneg_right h4 hr.le
  have := (h.mul' hinv).round_single
  rw [mul_one_div, mul_one_div, mul_one_div] at this
  exact this.mono (by omega) le_rfl

theorem sum' {v w : Fin n → ℚ} (h : ∀ i, ErrS k m (v i) (w i)) :
    ErrS k (∑ _i : Fin n, m) (∑ i, v i) (∑ i, w i) :=
  Err.sum' fun i => (h i).toErr

theorem vsum (h64 : IsFloat64 sqrt sum dot) {v w : Fin n → ℚ} (h : ∀ i, ErrS k m (v i) (w i)) :
    ErrS (k + n) (n * m) ((ringArith ℚ).vsum v) ((binary64 sqrt sum dot).vsum w) := by
  refine Err.mono (Err.vsum h64 fun i => (h i).toErr) ?_ le_rfl
  rw [Nat.mul_add]
  have := Nat.mul_le_mul_right n unit32_pos
  omega

theorem vdot (h64 : IsFloat64 sqrt sum dot) {v w v' w' : Fin n → ℚ} (h : ∀ i, ErrS k m (v i) (w i))
    (h' : ∀ i, ErrS l m' (v' i) (w' i)) :
    ErrS (k + l + n) (n * (m * m')) ((ringArith ℚ).vdot v v') ((binary64 sqrt sum dot).vdot w w') := by
  refine Err.mono (Err.vdot h64 (fun i => (h i).toErr) fun i => (h' i).toErr) ?_ le_rfl
  rw [Nat.mul_add, Nat.mul_add]
  have := Nat.mul_le_mul_right n unit32_pos
  omega

theorem comp {m'' : ℚ} (h : ErrS k m q r) (h' : ErrS l m'' r r') (hm : m'' ≤ grow (unit32 * k) * m) :
    ErrS (k + l) m q r' := by
  have := h.toErr.comp h'.toErr hm
  rwa [← Nat.mul_add] at this

end ErrS

theorem SumsTo32.err {l : List ℚ} {r : ℚ} (h : SumsTo32 l r) :
    ErrS l.length (l.map abs).sum l.sum r := by
  induction h with
  | nil => exact ErrS.refl (by simp)
  | single a =>
    have := (ErrS.refl (k := 0) (le_refl |a|)).mono (Nat.zero_le 1) le_rfl
    simpa using this
  | @add l l' a b hl hl' _ _ ih ih' =>
    have p1 := List.length_pos_of_ne_nil hl
    have p2 := List.length_pos_of_ne_nil hl'
    rw [List.map_append, List.sum_append, List.sum_append]
    exact (ih.add_single ih').mono (by rw [List.length_append]; omega) le_rfl
  | perm _ hp ih =>
    rw [← hp.sum_eq, ← hp.length_eq, ← (hp.map abs).sum_eq]
    exact ih

namespace ErrS

theorem vsum_single (hf : ∀ l, SumsTo32 l (sum32 l)) {k : ℕ} {m : ℚ} {v w : Fin n → ℚ} (h : ∀ i, ErrS k m (v i) (w i)) :
    ErrS (k + n) (n * m) ((ringArith ℚ).vsum v) ((binary32 sum32).vsum w) := by
  have h1 := sum' h
  have h2 := (hf (List.ofFn w)).err
  rw [List.length_ofFn, List.map_ofFn, List.sum_ofFn, List.sum_ofFn] at h2
  simp only [Finset.sum_const, Finset.card_univ, Fintype.card_fin, nsmul_eq_mul] at h1
  rw [ringArith_vsum]
  refine h1.comp h2 ?_
  refine (Finset.sum_le_sum fun i _ => (h i).le).trans ?_
  simp only [Finset.sum_const, Finset.card_univ, Fintype.card_fin, nsmul_eq_mul]
  exact le_of_eq (by ring)

theorem cumsum_single {k : ℕ} {m : ℚ} {v w : Fin n → ℚ} (h : ∀ i, ErrS k m (v i) (w i)) (j : Fin n) :
    ErrS (k + n) (n * m) ((ringArith ℚ).cumsum v j) ((binary32 sum32).cumsum w j) := by
  have key : ∀ (i : ℕ) (hi : i < n), ErrS (k + i) ((i + 1 : ℕ) * m) ((ringArith ℚ).cumsumAt v i hi)
      ((binary32 sum32).cumsumAt w i hi) := by
    intro i
    induction i with
    | zero =>
      intro hi
      have := h ⟨0, hi⟩
      simp only [Nat.add_zero, Nat.zero_add, Nat.cast_one, one_mul]
      exact this
    | succ i ih =>
      intro hi
      have := (ih (by omega)).add_single (h ⟨i + 1, hi⟩)
      refine this.mono (by omega) (le_of_eq ?_)
      push_cast
      ring
  have hm := (h j).pos
  refine (key j j.2).mono (by have := j.2; omega) (mul_le_mul_of_nonneg_right ?_ hm)
  exact_mod_cast j.2

end ErrS

/-- Sum of `k` numbers: value, sum of the absolute values, and `k`. A sum of no numbers is exact. -/
structure AccSingle (r : ℚ) (z : ℚ × ℚ × ℕ) : Prop where
  float : round32 r = r
  err : ErrS z.2.2 z.2.1 z.1 r
  zero : z.2.2 = 0 → r = 0 ∧ z.1 = 0 ∧ z.2.1 = 0

theorem AccSingle.add {a b : ℚ} {z w : ℚ × ℚ × ℕ} (ha : AccSingle a z) (hb : AccSingle b w) :
    AccSingle (round32 (a + b)) (z + w) := by
  rcases Nat.eq_zero_or_pos z.2.2 with h | h
  · obtain ⟨h1, h2, h3⟩ := ha.zero h
    have e : z = 0 := Prod.ext h2 (Prod.ext h3 h)
    rw [h1, e, zero_add, zero_add, hb.float]
    exact hb
  rcases Nat.eq_zero_or_pos w.2.2 with h' | h'
  · obtain ⟨h1, h2, h3⟩ := hb.zero h'
    have e : w = 0 := Prod.ext h2 (Prod.ext h3 h')
    rw [h1, e, add_zero, add_zero, ha.float]
    exact ha
  exact ⟨round32_idem _, (ha.err.add_single hb.err).mono (by show _ ≤ z.2.2 + w.2.2; omega) le_rfl,
    fun h0 => by
      have : z.2.2 + w.2.2 = 0 := h0
      omega⟩

theorem SumsTo32.acc {l : List ℚ} {r : ℚ} (h : SumsTo32 l r) :
    ∀ l' : List (ℚ × ℚ × ℕ), List.Forall₂ AccSingle l l' → AccSingle r l'.sum := by
  induction h with
  | nil =>
    intro l' h
    rw [List.forall₂_nil_left_iff] at h
    subst h
    exact ⟨round32_zero, ErrS.refl (by simp), fun _ => ⟨rfl, rfl, rfl⟩⟩
  | single a =>
    intro l' h
    cases h with
    | cons h1 h2 =>
      rw [List.forall₂_nil_left_iff] at h2
      subst h2
      simpa using h1
  | add _ _ _ _ ih ih' =>
    intro l' h
    obtain ⟨m₁, m₂, rfl, h1, h2⟩ := forall₂_append_left h
    rw [List.sum_append]
    exact (ih _ h1).add (ih' _ h2)
  | perm _ hp ih =>
    intro l' h
    obtain ⟨m, h1, h2⟩ := List.perm_comp_forall₂ hp h
    rw [← h2.sum_eq]
    exact ih _ h1

theorem accSingle_addRel (h : ∀ l, SumsTo32 l (sum32 l)) :
    (binary32 sum32).AddRel (monoidArith (ℚ × ℚ × ℕ)) AccSingle := by
  refine ⟨?_, fun a b z w ha hb => ha.add hb, fun l l' hl => (h l).acc l' hl⟩
  show AccSingle (round32 ((0 : ℤ) : ℚ)) 0
  rw [Int.cast_zero, round32_zero]
  exact ⟨round32_zero, ErrS.refl (by simp), fun _ => ⟨rfl, rfl, rfl⟩⟩

section shapes

variable (h : ∀ l, SumsTo32 l (sum32 l))

include h

/-- Error of the inner loop. -/
theorem dyad_err_single {L : ℕ} (y : Fin n → ℤ)
    (hy : ∀ i, 1 ≤ y i ∧ y i ≤ 2 ^ L) {c w : Fin n → ℚ} {C : ℚ} (hw : ∀ i, round32 (w i) = w i)
    (hc : ∀ i, ErrS 1 C (c i) (w i)) (s : Fin (2 ^ (L + 1)) → ℚ) :
    ∃ g, (if false then (binary32 sum32).dyadUpdateCompiled y w (fun _ => (binary32 sum32).ofInt 0) L s (posSums L)
        else (binary32 sum32).dyadUpdate y w (fun _ => (binary32 sum32).ofInt 0) L s (posSums L)) = .ok g ∧
      ∀ i, ErrS n (n * C) (gammaSpec y c i) (g i) := by
  obtain ⟨g, e, hg⟩ := dyad_rel (accSingle_addRel h) false y hy w (fun i => (c i, C, 1))
    (fun i => ⟨hw i, hc i, fun h0 => absurd h0 (by norm_num)⟩) s
  refine ⟨g, e, fun i => ?_⟩
  have h1 : (gammaSpec y (fun i => (c i, C, 1)) i).1 = gammaSpec y c i := by
    unfold gammaSpec
    rw [Prod.fst_sum]
    exact Finset.sum_congr rfl fun j _ => by split_ifs <;> rfl
  have h2 : (gammaSpec y (fun i => (c i, C, (1 : ℕ))) i).2.1 ≤ n * C := by
    unfold gammaSpec
    rw [Prod.snd_sum, Prod.fst_sum]
    have hC : 0 ≤ C := (hc i).pos
    have : ∑ j : Fin n, (if j < i ∧ y j < y i then (c j, C, 1) else (0 : ℚ × ℚ × ℕ)).2.1 ≤ ∑ _j : Fin n, C :=
      Finset.sum_le_sum fun j _ => by
        split_ifs
        · exact le_rfl
        · exact hC
    simpa using this
  have h3 : (gammaSpec y (fun i => (c i, C, (1 : ℕ))) i).2.2 ≤ n := by
    unfold gammaSpec
    rw [Prod.snd_sum, Prod.snd_sum]
    have : ∑ j : Fin n, (if j < i ∧ y j < y i then (c j, C, 1) else (0 : ℚ × ℚ × ℕ)).2.2 ≤ ∑ _j : Fin n, 1 :=
      Finset.sum_le_sum fun j _ => by
        split_ifs
        · exact le_rfl
        · exact Nat.zero_le _
    simpa using this
  have := (hg i).err.mono h3 h2
  rwa [h1] at this

/-- `_partial_sum_2d`. -/
theorem partShape_err_single (σ τ : Equiv.Perm (Fin n)) {c w g g' : Fin n → ℚ} {C : ℚ}
    (hc : ∀ i, ErrS 1 C (c i) (w i)) (hg : ∀ i, ErrS n (n * C) (g i) (g' i)) (i : Fin n) :
    ErrS ((n + 7)) (14 * n * C) ((ringArith ℚ).partShape σ τ c g i) ((binary32 sum32).partShape σ τ w g' i) := by
  have hC : 0 ≤ C := (hc i).pos
  have hn : (1 : ℚ) ≤ n := by exact_mod_cast i.pos
  have s0 := ErrS.vsum_single h hc
  have s1 := s0.sub_single (hc (σ.symm i))
  have a1 := (ErrS.cumsum_single (sum32 := sum32) (fun k => hc (τ k)) (τ.symm (σ.symm i))).sub_single
    (hc (τ (τ.symm (σ.symm i))))
  have a2 := a1.imul_single (z := 2) (Z := 2) (by norm_num)
  have b1 := (ErrS.cumsum_single (sum32 := sum32) hc (σ.symm i)).sub_single (hc (σ.symm i))
  have b2 := b1.imul_single (z := 2) (Z := 2) (by norm_num)
  have g2 := (hg (σ.symm i)).imul_single (z := 4) (Z := 4) (by norm_num)
  have t := (((s1.sub_single a2).sub_single b2).add_single g2)
  refine t.mono (by omega) ?_
  nlinarith

/-- Sum of products. -/
theorem prodShape_err_single (σ τ : Equiv.Perm (Fin n)) {D D' : (Fin n → ℚ) → Fin n → ℚ} {x y : Fin n → ℚ} {X Y : ℚ}
    (fx : ∀ i, round32 (x i) = x i) (fy : ∀ i, round32 (y i) = y i)
    (hx : ∀ i, |x i| ≤ X) (hy : ∀ i, |y i| ≤ Y)
    (hD : ∀ (c w : Fin n → ℚ) (C : ℚ), (∀ i, round32 (w i) = w i) → (∀ i, ErrS 1 C (c i) (w i)) →
      ∀ i, ErrS n (n * C) (D c i) (D' w i)) :
    ErrS ((2 * n + 12)) (56 * n ^ 2 * (X * Y)) ((ringArith ℚ).prodShape σ τ D x y)
      ((binary32 sum32).prodShape σ τ D' x y) := by
  have ex : ∀ i, ErrS 0 X (x i) (x i) := fun i => ErrS.refl (k := 0) (hx i)
  have ey : ∀ i, ErrS 0 Y (y i) (y i) := fun i => ErrS.refl (hy i)
  have exy : ∀ i, ErrS 1 (X * Y) (x i * y i) (round32 (x i * y i)) := fun i =>
    ((ex i).mul_single (ey i)).mono (by omega) le_rfl
  have part : ∀ (c w : Fin n → ℚ) (C : ℚ), (∀ i, round32 (w i) = w i) → (∀ i, ErrS 1 C (c i) (w i)) → ∀ i,
      ErrS ((n + 7)) (14 * n * C) ((ringArith ℚ).partShape σ τ c (D c) i)
        ((binary32 sum32).partShape σ τ w (D' w) i) :=
    fun c w C hw hc i => partShape_err_single h σ τ hc (hD c w C hw hc) i
  have p1 := part (fun _ => ((1 : ℤ) : ℚ)) (fun _ => round32 ((1 : ℤ) : ℚ)) 1 (fun i => round32_idem _)
    (fun i => (ErrS.refl (k := 0) (by norm_num)).round_single.mono (by omega) le_rfl)
  have pxy := part (fun k => x (σ k) * y (σ k)) (fun k => round32 (x (σ k) * y (σ k))) (X * Y) (fun i => round32_idem _)
    (fun i => exy (σ i))
  have py := part (fun k => y (σ k)) (fun k => y (σ k)) Y (fun i => fy _) (fun i => (ey _).mono (Nat.zero_le _) le_rfl)
  have px := part (fun k => x (σ k)) (fun k => x (σ k)) X (fun i => fx _) (fun i => (ex _).mono (Nat.zero_le _) le_rfl)
  have key := ErrS.vsum_single h (m := 56 * n * (X * Y)) (k := n + 12) fun i =>
    ((((((exy i).mul_single (p1 i)).add_single (pxy i)).sub_single ((ex i).mul_single (py i))).sub_single
      ((ey i).mul_single (px i))).mono (by omega) (le_of_eq (by ring)))
  refine key.mono (by omega) (le_of_eq (by ring))

theorem varTerm_err_single (hn : 0 < n) {x : Fin n → ℚ} {X : ℚ} (hx : ∀ i, |x i| ≤ X) :
    ErrS ((3 * n + 14)) (8 * n ^ 2 * (X * X)) (∑ i, ∑ j, |x i - x j| * |x i - x j|)
      ((binary32 sum32).varTerm x) := by
  have hm : (0 : ℤ) < n := by exact_mod_cast hn
  have hnq : (n : ℚ) ≠ 0 := by positivity
  have e0 : ∀ i, ErrS 0 X (x i) (x i) := fun i => ErrS.refl (k := 0) (hx i)
  have hX : 0 ≤ X := (e0 ⟨0, hn⟩).pos
  have mean := (ErrS.vsum_single h e0).idiv_single hm
  have d : ∀ i, ErrS ((n + 4)) (2 * X) (x i - (ringArith ℚ).vsum x / ((n : ℤ) : ℚ))
      (round32 (x i - round32 ((binary32 sum32).vsum x / round32 ((n : ℤ) : ℚ)))) := by
    intro i
    refine ((e0 i).sub_single mean).mono (by omega) (le_of_eq ?_)
    rw [Int.cast_natCast]
    field_simp
    ring
  have t := (((ErrS.vsum_single h fun i => (d i).mul_single (d i)).idiv_single hm).imul_single
    (z := 2 * (n : ℤ) ^ 2) (Z := 2 * n ^ 2) (by
    push_cast
    rw [abs_of_nonneg (by positivity)]))
  have e : ((2 * (n : ℤ) ^ 2 : ℤ) : ℚ) * ((ringArith ℚ).vsum (fun i => (x i - (ringArith ℚ).vsum x / ((n : ℤ) : ℚ))
      * (x i - (ringArith ℚ).vsum x / ((n : ℤ) : ℚ))) / ((n : ℤ) : ℚ)) = ∑ i, ∑ j, |x i - x j| * |x i - x j| := by
    simp only [ringArith_vsum, Int.cast_natCast, abs_mul_abs_self]
    push_cast
    have s1 : ∑ i, ∑ j, (x i - x j) * (x i - x j) = 2 * n * ∑ i, x i * x i - 2 * ((∑ i, x i) * ∑ i, x i) := by
      have : ∀ i j, (x i - x j) * (x i - x j) = x i * x i + x j * x j - 2 * (x i * x j) := fun i j => by ring
      simp only [this, Finset.sum_add_distrib, Finset.sum_sub_distrib, Finset.sum_const, Finset.card_univ,
        Fintype.card_fin, nsmul_eq_mul, ← Finset.mul_sum, ← Finset.sum_mul]
      ring
    have s2 : ∑ i, (x i - (∑ j, x j) / n) * (x i - (∑ j, x j) / n)
        = ∑ i, x i * x i - (∑ i, x i) * (∑ i, x i) / n := by
      have : ∀ i, (x i - (∑ j, x j) / n) * (x i - (∑ j, x j) / n)
          = x i * x i - 2 * ((∑ j, x j) / n) * x i + (∑ j, x j) / n * ((∑ j, x j) / n) := fun i => by ring
      simp only [this, Finset.sum_add_distrib, Finset.sum_sub_distrib, Finset.sum_const, Finset.card_univ,
        Fintype.card_fin, nsmul_eq_mul, ← Finset.mul_sum]
      field_simp
      ring
    rw [s1, s2]
    field_simp
  rw [e] at t
  refine t.mono (by omega) ?_
  rw [Int.cast_natCast]
  have : (2 : ℚ) * n ^ 2 * (n * (2 * X * (2 * X)) / n) = 8 * n ^ 2 * (X * X) := by
    field_simp
    ring
  rw [this]

end shapes

/-! ### Row sums, partly in double precision -/

section mixed

variable (h : ∀ l, SumsTo32 l (sum32 l)) (h64 : IsFloat64 sqrt sum dot)

include h

theorem axisSingle_err (σ : Equiv.Perm (Fin n)) {x : Fin n → ℚ} {X : ℚ} (hx : ∀ i, |x i| ≤ X) (i : Fin n) :
    ErrS ((n + 5)) (6 * n * X) ((ringArith ℚ).axisShape σ x i)
      (Arith.axisSingle (binary32 sum32) (binary64 sqrt sum dot) σ x i) := by
  have hX : 0 ≤ X := (abs_nonneg _).trans (hx i)
  have hn : (1 : ℚ) ≤ n := by exact_mod_cast i.pos
  have e0 : ∀ i, ErrS 0 X (x i) (x i) := fun i => ErrS.refl (k := 0) (hx i)
  have s0 := ErrS.vsum_single h e0
  have hz : |((2 * (((σ.symm i : Fin n) : ℕ) : ℤ) - n : ℤ) : ℚ)| ≤ n := by
    have h1 := (σ.symm i).2
    rw [← Int.cast_abs]
    have : |(2 * (((σ.symm i : Fin n) : ℕ) : ℤ) - n : ℤ)| ≤ n := abs_le.2 ⟨by omega, by omega⟩
    exact_mod_cast this
  have m1 := (e0 i).imul hz
  have b1 := (ErrS.cumsum_single (sum32 := sum32) (fun k => e0 (σ k)) (σ.symm i)).sub_single
    (e0 (σ (σ.symm i)))
  have b2 := b1.imul_single (z := 2) (Z := 2) (by norm_num)
  have t := (s0.add m1).sub b2
  unfold Arith.axisSingle
  dsimp only
  rw [scatter_perm]
  refine ErrS.mono t (by omega) ?_
  nlinarith

include h64

theorem totalSingle_err (σ : Equiv.Perm (Fin n)) {x : Fin n → ℚ} {X : ℚ} (hn : 0 < n) (hx : ∀ i, |x i| ≤ X) :
    ErrS ((2 * n + 5)) (6 * n ^ 2 * X) ((ringArith ℚ).totalShape σ x)
      (Arith.totalSingle (binary32 sum32) (binary64 sqrt sum dot) σ x) := by
  have hX : 0 ≤ X := (abs_nonneg _).trans (hx ⟨0, hn⟩)
  have hn1 : (1 : ℚ) ≤ n := by exact_mod_cast hn
  have e0 : ∀ i, ErrS 0 X (x i) (x i) := fun i => ErrS.refl (k := 0) (hx i)
  have m1 := ErrS.vsum h64 fun i => (e0 i).imul (z := ((σ.symm i : Fin n) : ℕ)) (Z := n) (by
    rw [Int.cast_natCast, abs_of_nonneg (by positivity)]
    exact_mod_cast (σ.symm i).2.le)
  have m2 := m1.imul (z := 2) (Z := 2) (by norm_num)
  have b1 := ErrS.vsum_single h fun i => (ErrS.cumsum_single (sum32 := sum32) (fun k => e0 (σ k)) (σ.symm i)).sub_single
    (e0 (σ (σ.symm i)))
  have b2 := b1.imul_single (z := 2) (Z := 2) (by norm_num)
  have t := m2.sub b2
  unfold Arith.totalSingle
  simp only [scatter_perm]
  refine ErrS.mono t (by omega) ?_
  have : 0 ≤ (n : ℚ) * X := by positivity
  nlinarith

omit h

theorem fromTermsSingle_err {bc : Bool} (hn : if bc then 3 < n else 0 < n) {M X Y : ℚ}
    {mp mp' aT aT' bT bT' : ℚ} {aA aA' bA bA' : Fin n → ℚ}
    (h1 : ErrS ((3 * n + 14)) (M * n ^ 2 * (X * Y)) mp mp')
    (h2 : ∀ i, ErrS ((n + 5)) (6 * n * X) (aA i) (aA' i))
    (h3 : ErrS ((2 * n + 5)) (6 * n ^ 2 * X) aT aT')
    (h4 : ∀ i, ErrS ((n + 5)) (6 * n * Y) (bA i) (bA' i))
    (h5 : ErrS ((2 * n + 5)) (6 * n ^ 2 * Y) bT bT') :
    ErrS ((4 * n + 22)) (sizeFrom M n bc * (X * Y)) (exactFrom n bc mp aA aT bA bT)
      (Arith.fromTermsSingle (binary32 sum32) (binary64 sqrt sum dot) bc mp' aA' aT' bA' bT') := by
  obtain ⟨p1, p2, p3⟩ := divs_pos hn
  have hm : (0 : ℤ) < n := by cases bc <;> simp at hn <;> omega
  have hnq : (0 : ℚ) < n := by exact_mod_cast hm
  have F := (h1.idiv_single hm).idiv_single p1
  have S := (((ErrS.vdot h64 (fun i => (h2 i).idiv hm) h4).idiv p2).imul (z := 2) (Z := 2) (by norm_num))
  have T := ((h3.idiv hm).mul h5).idiv p3
  have t := (F.sub S).add T
  rw [ringArith_vdot] at t
  have e : exactFrom n bc mp aA aT bA bT = mp / ((n : ℤ) : ℚ) / (divs n bc).1
      - ((2 : ℤ) : ℚ) * ((∑ i, aA i / ((n : ℤ) : ℚ) * bA i) / (divs n bc).2.1)
      + aT / ((n : ℤ) : ℚ) * bT / (divs n bc).2.2 := by
    rw [Int.cast_natCast]
    push_cast
    rfl
  rw [e]
  refine t.mono (by omega) (le_of_eq ?_)
  have q1 : ((divs n bc).1 : ℚ) ≠ 0 := by exact_mod_cast p1.ne'
  have q2 : ((divs n bc).2.1 : ℚ) ≠ 0 := by exact_mod_cast p2.ne'
  have q3 : ((divs n bc).2.2 : ℚ) ≠ 0 := by exact_mod_cast p3.ne'
  have q4 : (n : ℚ) ≠ 0 := hnq.ne'
  rw [Int.cast_natCast, sizeFrom]
  field_simp
  ring

include h

/-- Errors of the statistics of the AVL method on `float32` samples. -/
theorem avlStatsSingle_err {bc : Bool} (hn : 3 < n)
    {argsort : (Fin n → ℚ) → Equiv.Perm (Fin n)} (hsort : ∀ v : Fin n → ℚ, Monotone fun i => v (argsort v i))
    {x y : Fin n → ℚ} {X Y : ℚ} (fx : ∀ i, round32 (x i) = x i) (fy : ∀ i, round32 (y i) = y i)
    (hx : ∀ i, |x i| ≤ X) (hy : ∀ i, |y i| ≤ Y) :
    ∃ s, Arith.avlStatsSingle (binary32 sum32) (binary64 sqrt sum dot) bc argsort x y = .ok s ∧
    (ErrS ((4 * n + 22)) (sizeFrom 56 n bc * (X * Y)) (exactFrom n bc (absTerms x y).meanProd
      (absTerms x y).aAxis (absTerms x y).aTotal (absTerms x y).bAxis (absTerms x y).bTotal) s.cov) ∧
    (ErrS ((4 * n + 22)) (sizeFrom 56 n bc * (X * X)) (exactFrom n bc (absTerms x x).meanProd
      (absTerms x x).aAxis (absTerms x x).aTotal (absTerms x x).bAxis (absTerms x x).bTotal) s.varX) ∧
    (ErrS ((4 * n + 22)) (sizeFrom 56 n bc * (Y * Y)) (exactFrom n bc (absTerms y y).meanProd
      (absTerms y y).aAxis (absTerms y y).aTotal (absTerms y y).bAxis (absTerms y y).bTotal) s.varY) := by
  have hn0 : 0 < n := by omega
  have hL : n ≤ 2 ^ Nat.clog 2 n := Nat.le_pow_clog (by norm_num) n
  -- the exact run
  have hD : ∀ c : Fin n → ℚ, (if false then (ringArith ℚ).dyadUpdateCompiled
        (rankOf (argsort fun i => y (argsort x i))) c (fun _ => (ringArith ℚ).ofInt 0) (Nat.clog 2 n)
        (fun _ : Fin (2 ^ (Nat.clog 2 n + 1)) => (ringArith ℚ).ofInt 0) (posSums (Nat.clog 2 n))
      else (ringArith ℚ).dyadUpdate (rankOf (argsort fun i => y (argsort x i))) c
        (fun _ => (ringArith ℚ).ofInt 0) (Nat.clog 2 n)
        (fun _ : Fin (2 ^ (Nat.clog 2 n + 1)) => (ringArith ℚ).ofInt 0) (posSums (Nat.clog 2 n)))
      = .ok (gammaSpec (rankOf (argsort fun i => y (argsort x i))) c) := by
    intro c
    obtain ⟨g, e, hg⟩ := dyad_rel ringArith_addRel false
      (rankOf (argsort fun i => y (argsort x i))) (rankOf_bounds _ hL) c c (fun _ => rfl)
      (fun _ : Fin (2 ^ (Nat.clog 2 n + 1)) => (ringArith ℚ).ofInt 0)
    simp only [Bool.false_eq_true, if_false] at e ⊢
    rw [e]
    congr 1
    exact funext hg
  have exact_run := avlTermsWith_eq (ringArith ℚ) _ false argsort x y hn _ (by simpa using hD)
  have e1 := ringArith_avlTerms false argsort x y
  rw [Arith.avlTerms, exact_run, avlTermsImpl_eq_permTerms false argsort x y hn,
    permTerms_eq _ _ _ x y (hsort x) (hsort y) (hsort fun i => y (argsort x i))] at e1
  have shape : (ringArith ℚ).avlShape (argsort x) (argsort y) (argsort fun i => y (argsort x i))
      (gammaSpec (rankOf (argsort fun i => y (argsort x i)))) x y = absTerms x y := Except.ok.inj e1
  -- the rounded run
  choose D hD' using avlTermsWith_safe_loop (binary32 sum32) (Nat.clog 2 n) hL false
    (argsort fun i => y (argsort x i))
  have run := avlTermsWith_eq (binary32 sum32) _ false argsort x y hn D hD'
  have hmp : ErrS ((3 * n + 14)) (56 * n ^ 2 * (X * Y)) (absTerms x y).meanProd
      ((binary32 sum32).prodShape (argsort x) (argsort fun i => y (argsort x i)) D x y) := by
    rw [← shape]
    refine (prodShape_err_single h _ _ fx fy hx hy ?_).mono (by omega) le_rfl
    intro c w C hw hc i
    obtain ⟨g, e, hg⟩ := dyad_err_single h (rankOf (argsort fun i => y (argsort x i))) (rankOf_bounds _ hL) hw hc
      (fun _ : Fin (2 ^ (Nat.clog 2 n + 1)) => (binary32 sum32).ofInt 0)
    have := hD' w
    simp only [Bool.false_eq_true, if_false] at e this
    rw [this] at e
    rw [Except.ok.inj e]
    exact hg i
  have ax : ∀ i, ErrS ((n + 5)) (6 * n * X) ((absTerms x y).aAxis i)
      (Arith.axisSingle (binary32 sum32) (binary64 sqrt sum dot) (argsort x) x i) := by
    intro i
    rw [← shape]
    exact axisSingle_err h _ hx i
  have ay : ∀ i, ErrS ((n + 5)) (6 * n * Y) ((absTerms x y).bAxis i)
      (Arith.axisSingle (binary32 sum32) (binary64 sqrt sum dot) (argsort y) y i) := by
    intro i
    rw [← shape]
    exact axisSingle_err h _ hy i
  have tx : ErrS ((2 * n + 5)) (6 * n ^ 2 * X) (absTerms x y).aTotal
      (Arith.totalSingle (binary32 sum32) (binary64 sqrt sum dot) (argsort x) x) := by
    rw [← shape]
    exact totalSingle_err h h64 _ hn0 hx
  have ty : ErrS ((2 * n + 5)) (6 * n ^ 2 * Y) (absTerms x y).bTotal
      (Arith.totalSingle (binary32 sum32) (binary64 sqrt sum dot) (argsort y) y) := by
    rw [← shape]
    exact totalSingle_err h h64 _ hn0 hy
  have var : ∀ {x : Fin n → ℚ} {X : ℚ}, (∀ i, |x i| ≤ X) → ErrS ((3 * n + 14)) (56 * n ^ 2 * (X * X))
      (∑ i, ∑ j, |x i - x j| * |x i - x j|) ((binary32 sum32).varTerm x) := by
    intro x X hx
    have hX : 0 ≤ X := (abs_nonneg _).trans (hx ⟨0, hn0⟩)
    refine (varTerm_err_single h hn0 hx).mono le_rfl ?_
    gcongr
    norm_num
  have hbc : if bc then 3 < n else 0 < n := by split_ifs <;> omega
  have e : Arith.avlStatsSingle (binary32 sum32) (binary64 sqrt sum dot) bc argsort x y
      = Arith.avlStatsSingle (binary32 sum32) (binary64 sqrt sum dot) bc argsort x y := rfl
  conv_rhs at e => unfold Arith.avlStatsSingle Arith.avlTermsSingle Arith.avlTerms
  rw [run] at e
  exact ⟨_, e, fromTermsSingle_err h64 hbc hmp ax tx ay ty, fromTermsSingle_err h64 hbc (var hx) ax tx ax tx,
    fromTermsSingle_err h64 hbc (var hy) ay ty ay ty⟩

end mixed

end Dcor

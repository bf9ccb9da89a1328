/-
Forward error analysis of the AVL method in `float64`.
-/
import Verif.Proofs.ErrorSigned
import Verif.Proofs.ErrorBound
import Verif.Proofs.TermsOk

namespace Dcor

variable {sqrt : ℚ → ℚ} {sum : List ℚ → ℚ} {dot : List (ℚ × ℚ) → ℚ} {n : ℕ}

/-- Sum of `k` numbers: value, sum of the absolute values, and `k`. A sum of no numbers is exact. -/
structure Acc (r : ℚ) (z : ℚ × ℚ × ℕ) : Prop where
  float : round64 r = r
  err : Err z.2.2 z.2.1 z.1 r
  zero : z.2.2 = 0 → r = 0 ∧ z.1 = 0 ∧ z.2.1 = 0

theorem Acc.add {a b : ℚ} {z w : ℚ × ℚ × ℕ} (ha : Acc a z) (hb : Acc b w) : Acc (round64 (a + b)) (z + w) := by
  rcases Nat.eq_zero_or_pos z.2.2 with h | h
  · obtain ⟨h1, h2, h3⟩ := ha.zero h
    have e : z = 0 := Prod.ext h2 (Prod.ext h3 h)
    rw [h1, e, zero_add, zero_add, hb.float]
    exact hb
  rcases Nat.eq_zero_or_pos w.2.2 with h' | h'
  · obtain ⟨h1, h2, h3⟩ := hb.zero h'
    have e : w = 0 := Prod.ext h2 (Prod.ext h3 h')
    rw [h1, e, add_zero, add_zero, ha.float]
    exact ha
  exact ⟨round64_idem _, (ha.err.add hb.err).mono (by show _ ≤ z.2.2 + w.2.2; omega) le_rfl,
    fun h0 => by
      have : z.2.2 + w.2.2 = 0 := h0
      omega⟩

theorem forall₂_append_left {α β : Type} {P : α → β → Prop} {l₁ l₂ : List α} {l : List β}
    (h : List.Forall₂ P (l₁ ++ l₂) l) : ∃ m₁ m₂, l = m₁ ++ m₂ ∧ List.Forall₂ P l₁ m₁ ∧ List.Forall₂ P l₂ m₂ :=
  ⟨l.take l₁.length, l.drop l₁.length, (List.take_append_drop _ _).symm,
    by simpa using List.forall₂_take l₁.length h, by simpa using List.forall₂_drop l₁.length h⟩

theorem SumsTo.acc {l : List ℚ} {r : ℚ} (h : SumsTo l r) :
    ∀ l' : List (ℚ × ℚ × ℕ), List.Forall₂ Acc l l' → Acc r l'.sum := by
  induction h with
  | nil =>
    intro l' h
    rw [List.forall₂_nil_left_iff] at h
    subst h
    exact ⟨round64_zero, ⟨by simp, by simp [grow]⟩, fun _ => ⟨rfl, rfl, rfl⟩⟩
  | single a =>
    intro l' h
    cases h with
    | cons h1 h2 =>
      rw [List.forall₂_nil_left_iff] at h2
      subst h2
      simpa using h1
  | add _ _ _ _ ih ih' =>
    intro l' h
    obtain ⟨m₁, m₂, rfl, h1, h2⟩ := forall₂_append_left h
    rw [List.sum_append]
    exact (ih _ h1).add (ih' _ h2)
  | perm _ hp ih =>
    intro l' h
    obtain ⟨m, h1, h2⟩ := List.perm_comp_forall₂ hp h
    rw [← h2.sum_eq]
    exact ih _ h1

theorem acc_addRel (h : IsFloat64 sqrt sum dot) :
    (binary64 sqrt sum dot).AddRel (monoidArith (ℚ × ℚ × ℕ)) Acc := by
  refine ⟨?_, fun a b z w ha hb => ha.add hb, fun l l' hl => (h.sum l).acc l' hl⟩
  show Acc (round64 ((0 : ℤ) : ℚ)) 0
  rw [Int.cast_zero, round64_zero]
  exact ⟨round64_zero, ⟨by simp, by simp [grow]⟩, fun _ => ⟨rfl, rfl, rfl⟩⟩

/-- Error of the inner loop of the AVL method. -/
theorem dyad_err (h : IsFloat64 sqrt sum dot) {L : ℕ} (compiled : Bool) (y : Fin n → ℤ)
    (hy : ∀ i, 1 ≤ y i ∧ y i ≤ 2 ^ L) {c w : Fin n → ℚ} {C : ℚ} (hw : ∀ i, round64 (w i) = w i)
    (hc : ∀ i, Err 1 C (c i) (w i)) (s : Fin (2 ^ (L + 1)) → ℚ) :
    ∃ g, (if compiled then (binary64 sqrt sum dot).dyadUpdateCompiled y w (fun _ => (binary64 sqrt sum dot).ofInt 0) L s (posSums L)
        else (binary64 sqrt sum dot).dyadUpdate y w (fun _ => (binary64 sqrt sum dot).ofInt 0) L s (posSums L)) = .ok g ∧
      ∀ i, Err n (n * C) (gammaSpec y c i) (g i) := by
  obtain ⟨g, e, hg⟩ := dyad_rel (acc_addRel h) compiled y hy w (fun i => (c i, C, 1))
    (fun i => ⟨hw i, hc i, fun h0 => absurd h0 (by norm_num)⟩) s
  refine ⟨g, e, fun i => ?_⟩
  have h1 : (gammaSpec y (fun i => (c i, C, 1)) i).1 = gammaSpec y c i := by
    unfold gammaSpec
    rw [Prod.fst_sum]
    exact Finset.sum_congr rfl fun j _ => by split_ifs <;> rfl
  have h2 : (gammaSpec y (fun i => (c i, C, (1 : ℕ))) i).2.1 ≤ n * C := by
    unfold gammaSpec
    rw [Prod.snd_sum, Prod.fst_sum]
    have hC : 0 ≤ C := (hc i).pos
    have : ∑ j : Fin n, (if j < i ∧ y j < y i then (c j, C, 1) else (0 : ℚ × ℚ × ℕ)).2.1 ≤ ∑ _j : Fin n, C :=
      Finset.sum_le_sum fun j _ => by
        split_ifs
        · exact le_rfl
        · exact hC
    simpa using this
  have h3 : (gammaSpec y (fun i => (c i, C, (1 : ℕ))) i).2.2 ≤ n := by
    unfold gammaSpec
    rw [Prod.snd_sum, Prod.snd_sum]
    have : ∑ j : Fin n, (if j < i ∧ y j < y i then (c j, C, 1) else (0 : ℚ × ℚ × ℕ)).2.2 ≤ ∑ _j : Fin n, 1 :=
      Finset.sum_le_sum fun j _ => by
        split_ifs
        · exact le_rfl
        · exact Nat.zero_le _
    simpa using this
  have := (hg i).err.mono h3 h2
  rwa [h1] at this

section shapes

variable (h : IsFloat64 sqrt sum dot)

include h

/-- `_partial_sum_2d`. -/
theorem partShape_err (σ τ : Equiv.Perm (Fin n)) {c w g g' : Fin n → ℚ} {C : ℚ} (hc : ∀ i, Err 1 C (c i) (w i))
    (hg : ∀ i, Err n (n * C) (g i) (g' i)) (i : Fin n) :
    Err (n + 7) (14 * n * C) ((ringArith ℚ).partShape σ τ c g i) ((binary64 sqrt sum dot).partShape σ τ w g' i) := by
  have hC : 0 ≤ C := (hc i).pos
  have hn : (1 : ℚ) ≤ n := by exact_mod_cast i.pos
  have s0 := Err.vsum h hc
  have s1 := s0.sub (hc (σ.symm i))
  have a1 := (Err.cumsum (sqrt := sqrt) (sum := sum) (dot := dot) (fun k => hc (τ k)) (τ.symm (σ.symm i))).sub
    (hc (τ (τ.symm (σ.symm i))))
  have a2 := a1.imul (z := 2) (Z := 2) (by norm_num)
  have b1 := (Err.cumsum (sqrt := sqrt) (sum := sum) (dot := dot) hc (σ.symm i)).sub (hc (σ.symm i))
  have b2 := b1.imul (z := 2) (Z := 2) (by norm_num)
  have g2 := (hg (σ.symm i)).imul (z := 4) (Z := 4) (by norm_num)
  have t := (((s1.sub a2).sub b2).add g2)
  refine t.mono (by omega) ?_
  nlinarith

/-- Row sums. -/
theorem axisShape_err (σ : Equiv.Perm (Fin n)) {x : Fin n → ℚ} {X : ℚ} (hx : ∀ i, |x i| ≤ X) (i : Fin n) :
    Err (n + 5) (6 * n * X) ((ringArith ℚ).axisShape σ x i) ((binary64 sqrt sum dot).axisShape σ x i) := by
  have hX : 0 ≤ X := (abs_nonneg _).trans (hx i)
  have hn : (1 : ℚ) ≤ n := by exact_mod_cast i.pos
  have e0 : ∀ i, Err 0 X (x i) (x i) := fun i => Err.refl (hx i)
  have s0 := Err.vsum h e0
  have hz : |((2 * (((σ.symm i : Fin n) : ℕ) : ℤ) - n : ℤ) : ℚ)| ≤ n := by
    have h1 := (σ.symm i).2
    rw [← Int.cast_abs]
    have : |(2 * (((σ.symm i : Fin n) : ℕ) : ℤ) - n : ℤ)| ≤ n := abs_le.2 ⟨by omega, by omega⟩
    exact_mod_cast this
  have m1 := (e0 i).imul hz
  have b1 := (Err.cumsum (sqrt := sqrt) (sum := sum) (dot := dot) (fun k => e0 (σ k)) (σ.symm i)).sub
    (e0 (σ (σ.symm i)))
  have b2 := b1.imul (z := 2) (Z := 2) (by norm_num)
  have t := (s0.add m1).sub b2
  refine t.mono (by omega) ?_
  nlinarith

/-- Total sum. -/
theorem totalShape_err (σ : Equiv.Perm (Fin n)) {x : Fin n → ℚ} {X : ℚ} (hn : 0 < n) (hx : ∀ i, |x i| ≤ X) :
    Err (2 * n + 5) (6 * n ^ 2 * X) ((ringArith ℚ).totalShape σ x) ((binary64 sqrt sum dot).totalShape σ x) := by
  have hX : 0 ≤ X := (abs_nonneg _).trans (hx ⟨0, hn⟩)
  have hn1 : (1 : ℚ) ≤ n := by exact_mod_cast hn
  have e0 : ∀ i, Err 0 X (x i) (x i) := fun i => Err.refl (hx i)
  have m1 := Err.vsum h fun i => (e0 i).imul (z := ((σ.symm i : Fin n) : ℕ)) (Z := n) (by
    rw [Int.cast_natCast, abs_of_nonneg (by positivity)]
    exact_mod_cast (σ.symm i).2.le)
  have m2 := m1.imul (z := 2) (Z := 2) (by norm_num)
  have b1 := Err.vsum h fun i => (Err.cumsum (sqrt := sqrt) (sum := sum) (dot := dot) (fun k => e0 (σ k)) (σ.symm i)).sub
    (e0 (σ (σ.symm i)))
  have b2 := b1.imul (z := 2) (Z := 2) (by norm_num)
  have t := m2.sub b2
  refine t.mono (by omega) ?_
  have : 0 ≤ (n : ℚ) * X := by positivity
  nlinarith

/-- Sum of products. -/
theorem prodShape_err (σ τ : Equiv.Perm (Fin n)) {D D' : (Fin n → ℚ) → Fin n → ℚ} {x y : Fin n → ℚ} {X Y : ℚ}
    (fx : ∀ i, round64 (x i) = x i) (fy : ∀ i, round64 (y i) = y i)
    (hx : ∀ i, |x i| ≤ X) (hy : ∀ i, |y i| ≤ Y)
    (hD : ∀ (c w : Fin n → ℚ) (C : ℚ), (∀ i, round64 (w i) = w i) → (∀ i, Err 1 C (c i) (w i)) →
      ∀ i, Err n (n * C) (D c i) (D' w i)) :
    Err (2 * n + 12) (56 * n ^ 2 * (X * Y)) ((ringArith ℚ).prodShape σ τ D x y)
      ((binary64 sqrt sum dot).prodShape σ τ D' x y) := by
  have ex : ∀ i, Err 0 X (x i) (x i) := fun i => Err.refl (hx i)
  have ey : ∀ i, Err 0 Y (y i) (y i) := fun i => Err.refl (hy i)
  have exy : ∀ i, Err 1 (X * Y) (x i * y i) (round64 (x i * y i)) := fun i => (ex i).mul (ey i)
  have part : ∀ (c w : Fin n → ℚ) (C : ℚ), (∀ i, round64 (w i) = w i) → (∀ i, Err 1 C (c i) (w i)) → ∀ i,
      Err (n + 7) (14 * n * C) ((ringArith ℚ).partShape σ τ c (D c) i)
        ((binary64 sqrt sum dot).partShape σ τ w (D' w) i) :=
    fun c w C hw hc i => partShape_err h σ τ hc (hD c w C hw hc) i
  have r1 : round64 ((1 : ℤ) : ℚ) = 1 := by exact_mod_cast round64_int 1 (by norm_num)
  have p1 := part (fun _ => ((1 : ℤ) : ℚ)) (fun _ => round64 ((1 : ℤ) : ℚ)) 1 (fun i => round64_idem _)
    (fun i => (Err.refl (by norm_num)).round)
  have pxy := part (fun k => x (σ k) * y (σ k)) (fun k => round64 (x (σ k) * y (σ k))) (X * Y) (fun i => round64_idem _)
    (fun i => exy (σ i))
  have py := part (fun k => y (σ k)) (fun k => y (σ k)) Y (fun i => fy _) (fun i => (ey _).mono (Nat.zero_le _) le_rfl)
  have px := part (fun k => x (σ k)) (fun k => x (σ k)) X (fun i => fx _) (fun i => (ex _).mono (Nat.zero_le _) le_rfl)
  have key := Err.vsum h (m := 56 * n * (X * Y)) (k := n + 12) fun i =>
    ((((((exy i).mul (p1 i)).add (pxy i)).sub ((ex i).mul (py i))).sub ((ey i).mul (px i))).mono (by omega)
      (le_of_eq (by ring)))
  refine key.mono (by omega) (le_of_eq (by ring))

end shapes

/-! ### From the terms to the results -/

/-- Divisors of `_dcov_from_terms`. -/
def divs (n : ℕ) (bc : Bool) : ℤ × ℤ × ℤ :=
  (if bc then (n : ℤ) - 3 else n, if bc then ((n : ℤ) - 2) * (n - 3) else (n : ℤ) ^ 2,
    if bc then ((n : ℤ) - 1) * (n - 2) * (n - 3) else (n : ℤ) ^ 3)

theorem divs_pos {bc : Bool} (hn : if bc then 3 < n else 0 < n) :
    0 < (divs n bc).1 ∧ 0 < (divs n bc).2.1 ∧ 0 < (divs n bc).2.2 := by
  cases bc
  · simp only [Bool.false_eq_true, if_false] at hn
    have : (0 : ℤ) < n := by exact_mod_cast hn
    simp only [divs, Bool.false_eq_true, if_false]
    exact ⟨this, by positivity, by positivity⟩
  · simp only [if_true] at hn
    simp only [divs, if_true]
    exact ⟨by omega, mul_pos (by omega) (by omega), mul_pos (mul_pos (by omega) (by omega)) (by omega)⟩

/-- `_dcov_from_terms` without rounding. -/
def exactFrom (n : ℕ) (bc : Bool) (mp : ℚ) (aA : Fin n → ℚ) (aT : ℚ) (bA : Fin n → ℚ) (bT : ℚ) : ℚ :=
  mp / n / (divs n bc).1 - 2 * ((∑ i, aA i / n * bA i) / (divs n bc).2.1) + aT / n * bT / (divs n bc).2.2

/-- Size of the terms of `_dcov_from_terms`. -/
def sizeFrom (M : ℚ) (n : ℕ) (bc : Bool) : ℚ :=
  M * n / (divs n bc).1 + 72 * n ^ 2 / (divs n bc).2.1 + 36 * n ^ 3 / (divs n bc).2.2

theorem fromTerms_err (h : IsFloat64 sqrt sum dot) {bc : Bool} (hn : if bc then 3 < n else 0 < n) {M X Y : ℚ}
    {mp mp' aT aT' bT bT' : ℚ} {aA aA' bA bA' : Fin n → ℚ} (h1 : Err (3 * n + 14) (M * n ^ 2 * (X * Y)) mp mp')
    (h2 : ∀ i, Err (n + 5) (6 * n * X) (aA i) (aA' i)) (h3 : Err (2 * n + 5) (6 * n ^ 2 * X) aT aT')
    (h4 : ∀ i, Err (n + 5) (6 * n * Y) (bA i) (bA' i)) (h5 : Err (2 * n + 5) (6 * n ^ 2 * Y) bT bT') :
    Err (4 * n + 22) (sizeFrom M n bc * (X * Y)) (exactFrom n bc mp aA aT bA bT)
      ((binary64 sqrt sum dot).fromTerms bc mp' aA' aT' bA' bT') := by
  obtain ⟨p1, p2, p3⟩ := divs_pos hn
  have hm : (0 : ℤ) < n := by cases bc <;> simp at hn <;> omega
  have hnq : (0 : ℚ) < n := by exact_mod_cast hm
  have F := (h1.idiv hm).idiv p1
  have S := (((Err.vdot h (fun i => (h2 i).idiv hm) h4).idiv p2).imul (z := 2) (Z := 2) (by norm_num))
  have T := ((h3.idiv hm).mul h5).idiv p3
  have t := (F.sub S).add T
  rw [ringArith_vdot] at t
  have e : exactFrom n bc mp aA aT bA bT = mp / ((n : ℤ) : ℚ) / (divs n bc).1
      - ((2 : ℤ) : ℚ) * ((∑ i, aA i / ((n : ℤ) : ℚ) * bA i) / (divs n bc).2.1)
      + aT / ((n : ℤ) : ℚ) * bT / (divs n bc).2.2 := by
    rw [Int.cast_natCast]
    push_cast
    rfl
  rw [e]
  refine t.mono (by omega) (le_of_eq ?_)
  have q1 : ((divs n bc).1 : ℚ) ≠ 0 := by exact_mod_cast p1.ne'
  have q2 : ((divs n bc).2.1 : ℚ) ≠ 0 := by exact_mod_cast p2.ne'
  have q3 : ((divs n bc).2.2 : ℚ) ≠ 0 := by exact_mod_cast p3.ne'
  have q4 : (n : ℚ) ≠ 0 := hnq.ne'
  rw [Int.cast_natCast, sizeFrom]
  field_simp
  ring

theorem varTerm_err (h : IsFloat64 sqrt sum dot) (hn : 0 < n) {x : Fin n → ℚ} {X : ℚ} (hx : ∀ i, |x i| ≤ X) :
    Err (3 * n + 14) (8 * n ^ 2 * (X * X)) (∑ i, ∑ j, |x i - x j| * |x i - x j|)
      ((binary64 sqrt sum dot).varTerm x) := by
  have hm : (0 : ℤ) < n := by exact_mod_cast hn
  have hnq : (n : ℚ) ≠ 0 := by positivity
  have e0 : ∀ i, Err 0 X (x i) (x i) := fun i => Err.refl (hx i)
  have hX : 0 ≤ X := (e0 ⟨0, hn⟩).pos
  have mean := (Err.vsum h e0).idiv hm
  have d : ∀ i, Err (n + 4) (2 * X) (x i - (ringArith ℚ).vsum x / ((n : ℤ) : ℚ))
      (round64 (x i - round64 ((binary64 sqrt sum dot).vsum x / round64 ((n : ℤ) : ℚ)))) := by
    intro i
    refine ((e0 i).sub mean).mono (by omega) (le_of_eq ?_)
    rw [Int.cast_natCast]
    field_simp
    ring
  have t := (((Err.vsum h fun i => (d i).mul (d i)).idiv hm).imul (z := 2 * (n : ℤ) ^ 2) (Z := 2 * n ^ 2) (by
    push_cast
    rw [abs_of_nonneg (by positivity)]))
  have e : ((2 * (n : ℤ) ^ 2 : ℤ) : ℚ) * ((ringArith ℚ).vsum (fun i => (x i - (ringArith ℚ).vsum x / ((n : ℤ) : ℚ))
      * (x i - (ringArith ℚ).vsum x / ((n : ℤ) : ℚ))) / ((n : ℤ) : ℚ)) = ∑ i, ∑ j, |x i - x j| * |x i - x j| := by
    simp only [ringArith_vsum, Int.cast_natCast, abs_mul_abs_self]
    push_cast
    have s1 : ∑ i, ∑ j, (x i - x j) * (x i - x j) = 2 * n * ∑ i, x i * x i - 2 * ((∑ i, x i) * ∑ i, x i) := by
      have : ∀ i j, (x i - x j) * (x i - x j) = x i * x i + x j * x j - 2 * (x i * x j) := fun i j => by ring
      simp only [this, Finset.sum_add_distrib, Finset.sum_sub_distrib, Finset.sum_const, Finset.card_univ,
        Fintype.card_fin, nsmul_eq_mul, ← Finset.mul_sum, ← Finset.sum_mul]
      ring
    have s2 : ∑ i, (x i - (∑ j, x j) / n) * (x i - (∑ j, x j) / n)
        = ∑ i, x i * x i - (∑ i, x i) * (∑ i, x i) / n := by
      have : ∀ i, (x i - (∑ j, x j) / n) * (x i - (∑ j, x j) / n)
          = x i * x i - 2 * ((∑ j, x j) / n) * x i + (∑ j, x j) / n * ((∑ j, x j) / n) := fun i => by ring
      simp only [this, Finset.sum_add_distrib, Finset.sum_sub_distrib, Finset.sum_const, Finset.card_univ,
        Fintype.card_fin, nsmul_eq_mul, ← Finset.mul_sum]
      field_simp
      ring
    rw [s1, s2]
    field_simp
  rw [e] at t
  refine t.mono (by omega) ?_
  rw [Int.cast_natCast]
  have : (2 : ℚ) * n ^ 2 * (n * (2 * X * (2 * X)) / n) = 8 * n ^ 2 * (X * X) := by
    field_simp
    ring
  rw [this]

/-! ### The AVL method -/

/-- The sums of the definition. -/
def absTerms (x y : Fin n → ℚ) : CoreTerms ℚ n where
  meanProd := ∑ i, ∑ j, |x i - x j| * |y i - y j|
  aAxis := fun i => ∑ j, |x i - x j|
  aTotal := ∑ i, ∑ j, |x i - x j|
  bAxis := fun i => ∑ j, |y i - y j|
  bTotal := ∑ i, ∑ j, |y i - y j|

/-- Errors of the terms. -/
structure TermsErr (M X Y : ℚ) (t t' : CoreTerms ℚ n) : Prop where
  meanProd : Err (3 * n + 14) (M * n ^ 2 * (X * Y)) t.meanProd t'.meanProd
  aAxis : ∀ i, Err (n + 5) (6 * n * X) (t.aAxis i) (t'.aAxis i)
  aTotal : Err (2 * n + 5) (6 * n ^ 2 * X) t.aTotal t'.aTotal
  bAxis : ∀ i, Err (n + 5) (6 * n * Y) (t.bAxis i) (t'.bAxis i)
  bTotal : Err (2 * n + 5) (6 * n ^ 2 * Y) t.bTotal t'.bTotal

theorem avlTerms_err (h : IsFloat64 sqrt sum dot) (hn : 3 < n) (compiled : Bool)
    {argsort : (Fin n → ℚ) → Equiv.Perm (Fin n)} (hsort : ∀ v : Fin n → ℚ, Monotone fun i => v (argsort v i))
    {x y : Fin n → ℚ} {X Y : ℚ} (fx : ∀ i, round64 (x i) = x i) (fy : ∀ i, round64 (y i) = y i)
    (hx : ∀ i, |x i| ≤ X) (hy : ∀ i, |y i| ≤ Y) :
    ∃ t, (binary64 sqrt sum dot).avlTerms compiled argsort x y = .ok t ∧ TermsErr 56 X Y (absTerms x y) t := by
  have hL : n ≤ 2 ^ Nat.clog 2 n := Nat.le_pow_clog (by norm_num) n
  -- the exact run
  have hD : ∀ c : Fin n → ℚ, (if compiled then (ringArith ℚ).dyadUpdateCompiled
        (rankOf (argsort fun i => y (argsort x i))) c (fun _ => (ringArith ℚ).ofInt 0) (Nat.clog 2 n)
        (fun _ : Fin (2 ^ (Nat.clog 2 n + 1)) => (ringArith ℚ).ofInt 0) (posSums (Nat.clog 2 n))
      else (ringArith ℚ).dyadUpdate (rankOf (argsort fun i => y (argsort x i))) c
        (fun _ => (ringArith ℚ).ofInt 0) (Nat.clog 2 n)
        (fun _ : Fin (2 ^ (Nat.clog 2 n + 1)) => (ringArith ℚ).ofInt 0) (posSums (Nat.clog 2 n)))
      = .ok (gammaSpec (rankOf (argsort fun i => y (argsort x i))) c) := by
    intro c
    obtain ⟨g, e, hg⟩ := dyad_rel ringArith_addRel compiled
      (rankOf (argsort fun i => y (argsort x i))) (rankOf_bounds _ hL) c c (fun _ => rfl)
      (fun _ : Fin (2 ^ (Nat.clog 2 n + 1)) => (ringArith ℚ).ofInt 0)
    rw [e]
    congr 1
    exact funext hg
  have exact_run := avlTermsWith_eq (ringArith ℚ) _ compiled argsort x y hn _ hD
  have e1 := ringArith_avlTerms compiled argsort x y
  rw [Arith.avlTerms, exact_run, avlTermsImpl_eq_permTerms compiled argsort x y hn,
    permTerms_eq _ _ _ x y (hsort x) (hsort y) (hsort fun i => y (argsort x i))] at e1
  have shape : (ringArith ℚ).avlShape (argsort x) (argsort y) (argsort fun i => y (argsort x i))
      (gammaSpec (rankOf (argsort fun i => y (argsort x i)))) x y = absTerms x y := Except.ok.inj e1
  -- the rounded run
  choose D hD' using avlTermsWith_safe_loop (binary64 sqrt sum dot) (Nat.clog 2 n) hL compiled
    (argsort fun i => y (argsort x i))
  refine ⟨_, avlTermsWith_eq (binary64 sqrt sum dot) _ compiled argsort x y hn D hD', ?_⟩
  rw [← shape]
  refine ⟨(prodShape_err h _ _ fx fy hx hy ?_).mono (by omega) le_rfl, fun i => axisShape_err h _ hx i,
    totalShape_err h _ (by omega) hx, fun i => axisShape_err h _ hy i, totalShape_err h _ (by omega) hy⟩
  intro c w C hw hc i
  obtain ⟨g, e, hg⟩ := dyad_err h compiled (rankOf (argsort fun i => y (argsort x i))) (rankOf_bounds _ hL) hw hc
    (fun _ : Fin (2 ^ (Nat.clog 2 n + 1)) => (binary64 sqrt sum dot).ofInt 0)
  rw [hD'] at e
  rw [Except.ok.inj e]
  exact hg i

/-! ### Results -/

theorem grow_cast (K : ℕ) : ((grow K : ℚ) : ℝ) = (1 + uRound) ^ K := by
  unfold grow uRound
  push_cast
  rfl

theorem distMat_cast (x : Fin n → ℚ) :
    Spec.distMat 1 (fun i (_ : Fin 1) => (x i : ℝ)) = fun i j => ((|x i - x j| : ℚ) : ℝ) := by
  funext i j
  rw [distMat_one]
  push_cast
  rfl

theorem exactFrom_biased (hn : 0 < n) (x y : Fin n → ℚ) :
    ((exactFrom n false (absTerms x y).meanProd (absTerms x y).aAxis (absTerms x y).aTotal (absTerms x y).bAxis
      (absTerms x y).bTotal : ℚ) : ℝ) = Spec.dcovSqr (Spec.distMat 1 (fun i (_ : Fin 1) => (x i : ℝ)))
      (Spec.distMat 1 (fun i (_ : Fin 1) => (y i : ℝ))) := by
  rw [Spec.dcovSqr_eq_terms _ _ (Spec.distMat_symm 1 _) (Spec.distMat_symm 1 _) hn, distMat_cast, distMat_cast]
  have hn' : (n : ℝ) ≠ 0 := by positivity
  simp only [exactFrom, absTerms, divs, Bool.false_eq_true, if_false]
  push_cast
  have : ∑ i, (∑ j, |(x i : ℝ) - x j|) / n * (∑ j, |(y i : ℝ) - y j|)
      = (∑ i, (∑ j, |(x i : ℝ) - x j|) * (∑ j, |(y i : ℝ) - y j|)) / n := by
    rw [Finset.sum_div]
    exact Finset.sum_congr rfl fun i _ => by ring
  rw [this]
  field_simp

theorem exactFrom_unbiased (hn : 3 < n) (x y : Fin n → ℚ) :
    ((exactFrom n true (absTerms x y).meanProd (absTerms x y).aAxis (absTerms x y).aTotal (absTerms x y).bAxis
      (absTerms x y).bTotal : ℚ) : ℝ) = Spec.uDcovSqr (Spec.distMat 1 (fun i (_ : Fin 1) => (x i : ℝ)))
      (Spec.distMat 1 (fun i (_ : Fin 1) => (y i : ℝ))) := by
  rw [Spec.uDcovSqr_eq_terms _ _ (Spec.distMat_symm 1 _) (Spec.distMat_symm 1 _)
    (Spec.distMat_diag one_ne_zero _) (Spec.distMat_diag one_ne_zero _) hn, distMat_cast, distMat_cast]
  have hn' : (n : ℝ) ≠ 0 := by
    have : 0 < n := by omega
    positivity
  simp only [exactFrom, absTerms, divs, if_true]
  push_cast
  have : ∑ i, (∑ j, |(x i : ℝ) - x j|) / n * (∑ j, |(y i : ℝ) - y j|)
      = (∑ i, (∑ j, |(x i : ℝ) - x j|) * (∑ j, |(y i : ℝ) - y j|)) / n := by
    rw [Finset.sum_div]
    exact Finset.sum_congr rfl fun i _ => by ring
  rw [this]
  generalize (n : ℝ) - 1 = n1
  generalize (n : ℝ) - 2 = n2
  generalize (n : ℝ) - 3 = n3
  simp only [div_eq_mul_inv, mul_inv]
  ring

theorem sizeFrom_biased (hn : 0 < n) (M : ℚ) : sizeFrom M n false = M + 108 := by
  have : (n : ℚ) ≠ 0 := by positivity
  simp only [sizeFrom, divs, Bool.false_eq_true, if_false]
  push_cast
  field_simp
  ring

theorem sizeFrom_unbiased (hn : 3 < n) {M : ℚ} (hM : 0 ≤ M) : sizeFrom M n true ≤ 4 * M + 960 := by
  have h4 : (4 : ℚ) ≤ n := by exact_mod_cast hn
  have n1 : (0 : ℚ) < n - 1 := by linarith
  have n2 : (0 : ℚ) < n - 2 := by linarith
  have n3 : (0 : ℚ) < n - 3 := by linarith
  simp only [sizeFrom, divs, if_true]
  push_cast
  have a : M * n / (n - 3) ≤ 4 * M := by rw [div_le_iff₀ n3]; nlinarith
  have b : (72 : ℚ) * n ^ 2 / ((n - 2) * (n - 3)) ≤ 576 := by
    rw [div_le_iff₀ (mul_pos n2 n3)]; nlinarith
  have c : (36 : ℚ) * n ^ 3 / ((n - 1) * (n - 2) * (n - 3)) ≤ 384 := by
    rw [div_le_iff₀ (mul_pos (mul_pos n1 n2) n3)]
    obtain ⟨t, ht⟩ : ∃ t : ℚ, (n : ℚ) = t + 4 := ⟨n - 4, by ring⟩
    have ht0 : 0 ≤ t := by linarith
    rw [ht]
    have h2 := mul_nonneg ht0 ht0
    have h3 := mul_nonneg h2 ht0
    nlinarith
  linarith

/-- The error with respect to the definition. -/
theorem Err.real {K : ℕ} (hK : K ≤ 2 ^ 53) {m q r : ℚ} {v : ℝ} (h : Err K m q r) (hv : (q : ℝ) = v) {c : ℚ}
    (hm : m ≤ c) : |(r : ℝ) - v| ≤ 2 * K * c / 2 ^ 53 := by
  have h1 := (Rat.cast_le (K := ℝ)).2 h.err
  push_cast at h1
  rw [grow_cast, hv] at h1
  refine h1.trans ?_
  have hm0 : (0 : ℝ) ≤ m := by exact_mod_cast h.pos
  have hm' : (m : ℝ) ≤ c := by exact_mod_cast hm
  have := pow_sub_one_le hK
  calc ((1 + uRound) ^ K - 1) * (m : ℝ) ≤ 2 * K / 2 ^ 53 * m := mul_le_mul_of_nonneg_right this hm0
    _ ≤ 2 * K / 2 ^ 53 * c := mul_le_mul_of_nonneg_left hm' (by positivity)
    _ = _ := by ring

/-- Errors of the statistics computed from terms, whose rows may be in a different order. -/
theorem stats_err (h : IsFloat64 sqrt sum dot) {bc : Bool} (hn : if bc then 3 < n else 0 < n) {x y : Fin n → ℚ}
    {M X Y : ℚ} (hM : 8 ≤ M) (hx : ∀ i, |x i| ≤ X) (hy : ∀ i, |y i| ≤ Y) {t t' : CoreTerms ℚ n}
    (ht : TermsErr M X Y t' t) (σ : Equiv.Perm (Fin n)) (e1 : t'.meanProd = (absTerms x y).meanProd)
    (e2 : ∀ i, t'.aAxis i = (absTerms x y).aAxis (σ i)) (e3 : t'.aTotal = (absTerms x y).aTotal)
    (e4 : ∀ i, t'.bAxis i = (absTerms x y).bAxis (σ i)) (e5 : t'.bTotal = (absTerms x y).bTotal)
    {s : Arith.StatsSqr ℚ} (hs : s = (binary64 sqrt sum dot).statsFromTerms bc
      { core := t, aMeanProd := (binary64 sqrt sum dot).varTerm x, bMeanProd := (binary64 sqrt sum dot).varTerm y }) :
    (Err (4 * n + 22) (sizeFrom M n bc * (X * Y)) (exactFrom n bc (absTerms x y).meanProd (absTerms x y).aAxis
        (absTerms x y).aTotal (absTerms x y).bAxis (absTerms x y).bTotal) s.cov) ∧
    (Err (4 * n + 22) (sizeFrom M n bc * (X * X)) (exactFrom n bc (absTerms x x).meanProd (absTerms x x).aAxis
        (absTerms x x).aTotal (absTerms x x).bAxis (absTerms x x).bTotal) s.varX) ∧
    (Err (4 * n + 22) (sizeFrom M n bc * (Y * Y)) (exactFrom n bc (absTerms y y).meanProd (absTerms y y).aAxis
        (absTerms y y).aTotal (absTerms y y).bAxis (absTerms y y).bTotal) s.varY) := by
  have hn0 : 0 < n := by cases bc <;> simp at hn <;> omega
  subst hs
  have var : ∀ {x : Fin n → ℚ} {X : ℚ}, (∀ i, |x i| ≤ X) → Err (3 * n + 14) (M * n ^ 2 * (X * X))
      (∑ i, ∑ j, |x i - x j| * |x i - x j|) ((binary64 sqrt sum dot).varTerm x) := by
    intro x X hx
    have hX : 0 ≤ X := (abs_nonneg _).trans (hx ⟨0, hn0⟩)
    refine (varTerm_err h hn0 hx).mono le_rfl ?_
    gcongr
  have perm : ∀ mp aT bT : ℚ, ∀ a b : Fin n → ℚ, exactFrom n bc mp (fun i => a (σ i)) aT (fun i => b (σ i)) bT
      = exactFrom n bc mp a aT b bT := by
    intro mp aT bT a b
    unfold exactFrom
    rw [Equiv.sum_comp σ fun i => a i / n * b i]
  have h2 := ht.aAxis
  have h4 := ht.bAxis
  simp only [e2] at h2
  simp only [e4] at h4
  have r1 := fromTerms_err h hn ht.meanProd h2 ht.aTotal h4 ht.bTotal
  have r2 := fromTerms_err h hn (var hx) h2 ht.aTotal h2 ht.aTotal
  have r3 := fromTerms_err h hn (var hy) h4 ht.bTotal h4 ht.bTotal
  rw [perm, e1, e3, e5] at r1
  rw [perm, e3] at r2
  rw [perm, e5] at r3
  exact ⟨r1, r2, r3⟩

end Dcor

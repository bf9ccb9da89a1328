/-
The mergesort method on integers in single precision: nothing is rounded while the sums fit into 24 bits.
-/
import Verif.Model.Float32Merge
import Verif.Proofs.IntSingle
import Verif.Proofs.IntExactMerge

namespace Dcor

/-- A scalar product of integers is exact in any order. -/
theorem DotsTo32.exact {l : List (ℚ × ℚ)} {r : ℚ} (h : DotsTo32 l r) :
    (∀ p ∈ l, IsInt (p.1 * p.2)) → (l.map fun p => |p.1 * p.2|).sum ≤ 2 ^ 24 →
      r = (l.map fun p => p.1 * p.2).sum := by
  have key : ∀ l : List (ℚ × ℚ), |(l.map fun p => p.1 * p.2).sum| ≤ (l.map fun p => |p.1 * p.2|).sum := fun l => by
    have := abs_list_sum_le (l.map fun p => p.1 * p.2)
    rwa [List.map_map] at this
  have pos : ∀ l : List (ℚ × ℚ), 0 ≤ (l.map fun p => |p.1 * p.2|).sum := fun l => (abs_nonneg _).trans (key l)
  have int : ∀ l : List (ℚ × ℚ), (∀ p ∈ l, IsInt (p.1 * p.2)) → IsInt (l.map fun p => p.1 * p.2).sum := fun l hl => by
    apply IsInt.list_sum
    intro a ha
    obtain ⟨p, hp, rfl⟩ := List.mem_map.1 ha
    exact hl p hp
  induction h with
  | nil => simp
  | single a b =>
    intro hl hs
    simp only [List.map_cons, List.map_nil, List.sum_cons, List.sum_nil, add_zero] at hs ⊢
    exact round32_isInt (hl (a, b) (by simp)) hs
  | @fma a b l c _ _ ih =>
    intro hl hs
    have e1 := pos l
    have e3 := key ((a, b) :: l)
    have hi := int _ hl
    simp only [List.map_cons, List.sum_cons] at hs e3 hi ⊢
    have := abs_nonneg (a * b)
    rw [ih (fun p hp => hl p (by simp [hp])) (by linarith)]
    exact round32_isInt hi (by linarith)
  | @add l l' a b _ _ _ _ ih1 ih2 =>
    intro hl hs
    have e1 := pos l
    have e2 := pos l'
    have e3 := key (l ++ l')
    have hi := int _ hl
    rw [List.map_append, List.sum_append] at hs e3
    rw [ih1 (fun a ha => hl a (by simp [ha])) (by linarith), ih2 (fun a ha => hl a (by simp [ha])) (by linarith),
      ← List.sum_append, ← List.map_append]
    exact round32_isInt hi (by rw [List.map_append, List.sum_append] at *; linarith)
  | @perm l l' a _ hp ih =>
    intro hl hs
    rw [← (hp.map _).sum_eq]
    apply ih (fun a ha => hl a (hp.mem_iff.1 ha))
    rwa [(hp.map _).sum_eq]

variable {sum32 sum : List ℚ → ℚ} {sqrt : ℚ → ℚ} {dot32 dot : List (ℚ × ℚ) → ℚ} {n : ℕ}

theorem binary32m_intExact (h : ∀ l, SumsTo32 l (sum32 l)) (hd : ∀ l, DotsTo32 l (dot32 l)) :
    (binary32m sum32 dot32).IntExact (2 ^ 24) where
  add := (binary32_intExact h).add
  sub := (binary32_intExact h).sub
  mul := (binary32_intExact h).mul
  sum := (binary32_intExact h).sum
  sqrt := (binary32_intExact h).sqrt
  dot l hp hl := by
    show dot32 (l.map fun p : ℤ × ℤ => (round32 (p.1 : ℚ), round32 (p.2 : ℚ))) = round32 (((l.map fun p => p.1 * p.2).sum : ℤ) : ℚ)
    have e : (l.map fun p : ℤ × ℤ => (round32 p.1, round32 p.2)) = l.map fun p : ℤ × ℤ => ((p.1 : ℚ), (p.2 : ℚ)) :=
      List.map_congr_left fun p hp' => by rw [round32_int _ (hp p hp').1, round32_int _ (hp p hp').2]
    have habs : ((l.map fun p : ℤ × ℤ => ((p.1 : ℚ), (p.2 : ℚ))).map fun p => |p.1 * p.2|).sum
        = (((l.map fun p => |p.1 * p.2|).sum : ℤ) : ℚ) := by
      rw [List.map_map, Int.cast_list_sum, List.map_map]
      congr 1
      apply List.map_congr_left
      intro p _
      simp
    have h1 := (hd (l.map fun p : ℤ × ℤ => ((p.1 : ℚ), (p.2 : ℚ)))).exact (by
      intro a ha
      obtain ⟨p, _, rfl⟩ := List.mem_map.1 ha
      exact ⟨p.1 * p.2, by push_cast; rfl⟩) (by rw [habs]; exact_mod_cast hl)
    have h2 : ((l.map fun p : ℤ × ℤ => ((p.1 : ℚ), (p.2 : ℚ))).map fun p => p.1 * p.2).sum
        = (((l.map fun p => p.1 * p.2).sum : ℤ) : ℚ) := by
      rw [List.map_map, Int.cast_list_sum, List.map_map]
      congr 1
      apply List.map_congr_left
      intro p _
      simp
    rw [e, h1, h2, round32_int]
    have := int_abs_sum_le (l.map fun p => p.1 * p.2)
    rw [List.map_map] at this
    exact this.trans hl

section

variable (h : ∀ l, SumsTo32 l (sum32 l)) (hd : ∀ l, DotsTo32 l (dot32 l)) (h64 : IsFloat64 sqrt sum dot)

include h hd h64

/-- The row sums are those of double precision. -/
theorem rowSumsSingle_int (hn : 0 < n) (x : Fin n → ℤ) {X : ℤ} (hX : 1 ≤ X) (hx : ∀ i, |x i| ≤ X) (hM : 4 * (n * X) ≤ 2 ^ 24) :
    Arith.rowSumsSingle (binary32m sum32 dot32) (binary64 sqrt sum dot) (fun i => (x i : ℚ))
      = (binary64 sqrt sum dot).computeRowSums (fun i => (x i : ℚ)) := by
  have hS := binary32m_intExact h hd
  have hD := binary64_intExact h64
  have hn' : (1 : ℤ) ≤ n := by exact_mod_cast hn
  have hnX : (n : ℤ) ≤ n * X := le_mul_of_one_le_right (by omega) hX
  have hXn : X ≤ n * X := le_mul_of_one_le_left (by omega) hn'
  have hC : ∑ i, |x i| ≤ n * X := sum_abs_le hx
  have ab : ∀ a : ℤ, -2 ^ 24 ≤ a → a ≤ 2 ^ 24 → |a| ≤ 2 ^ 24 := fun a h1 h2 => abs_le.2 ⟨h1, h2⟩
  have up : ∀ {a : ℤ}, |a| ≤ 2 ^ 24 → |a| ≤ 2 ^ 53 := fun h => h.trans (by norm_num)
  have of32 : ∀ z : ℤ, |z| ≤ 2 ^ 24 → (binary32m sum32 dot32).ofInt z = (z : ℚ) := fun z hz => round32_int z hz
  have of64 : ∀ z : ℤ, |z| ≤ 2 ^ 24 → (binary64 sqrt sum dot).ofInt z = (z : ℚ) := fun z hz => round64_int z (up hz)
  have hxM : ∀ i, |x i| ≤ 2 ^ 24 := fun i => (hx i).trans (by omega)
  have c32 : (fun i => (x i : ℚ)) = fun i => (binary32m sum32 dot32).ofInt (x i) := funext fun i => (of32 _ (hxM i)).symm
  have c64 : (fun i => (x i : ℚ)) = fun i => (binary64 sqrt sum dot).ofInt (x i) := funext fun i => (of64 _ (hxM i)).symm
  have bc : ∀ k, |Dcor.cumsum x k| ≤ n * X := fun k => (cumsum_abs_le x k).trans hC
  have hc : ∀ k, (binary32m sum32 dot32).cumsum (fun i => (x i : ℚ)) k = ((Dcor.cumsum x k : ℤ) : ℚ) := fun k => by
    rw [c32, hS.cumsum x (by omega) k, of32 _ ((bc k).trans (by omega))]
  have hc' : ∀ k, (binary64 sqrt sum dot).cumsum (fun i => (x i : ℚ)) k = ((Dcor.cumsum x k : ℤ) : ℚ) := fun k => by
    rw [c64, hD.cumsum x (by omega) k, of64 _ ((bc k).trans (by omega))]
  unfold Arith.rowSumsSingle Arith.computeRowSums
  rw [dif_pos hn, dif_pos hn]
  dsimp only
  congr 1
  funext i
  rw [hc, hc, hc', hc']
  congr 1
  have b1 := abs_bounds (bc ⟨n - 1, by omega⟩)
  have b2 := abs_bounds (bc i)
  generalize (n : ℤ) * X = N at *
  generalize Dcor.cumsum x i = P at *
  generalize Dcor.cumsum x ⟨n - 1, _⟩ = T at *
  rw [← of32 P (ab _ (by omega) (by omega)), hS.imul 2 P (ab _ (by omega) (by omega)) (ab _ (by omega) (by omega)) (ab _ (by omega) (by omega)),
    ← of32 T (ab _ (by omega) (by omega)), hS.sub T _ (ab _ (by omega) (by omega)) (ab _ (by omega) (by omega)) (ab _ (by omega) (by omega)),
    of32 _ (ab _ (by omega) (by omega)), of32 P (ab _ (by omega) (by omega)), of32 T (ab _ (by omega) (by omega)),
    ← of64 P (ab _ (by omega) (by omega)), hD.imul 2 P (up (ab _ (by omega) (by omega))) (up (ab _ (by omega) (by omega))) (up (ab _ (by omega) (by omega))),
    ← of64 T (ab _ (by omega) (by omega)), hD.sub T _ (up (ab _ (by omega) (by omega))) (up (ab _ (by omega) (by omega))) (up (ab _ (by omega) (by omega))),
    of64 _ (ab _ (by omega) (by omega))]

/-- The terms are those of double precision. -/
theorem mergesortTermsSingle_int (hn : 0 < n) (argsort : (Fin n → ℚ) → Equiv.Perm (Fin n)) (x y : Fin n → ℤ) {X Y : ℤ}
    (hX : 1 ≤ X) (hY : 1 ≤ Y) (hx : ∀ i, |x i| ≤ X) (hy : ∀ i, |y i| ≤ Y) (hM : 16 * (n * (n * (X * Y))) ≤ 2 ^ 24) :
    Arith.mergesortTermsSingle (binary32m sum32 dot32) (binary64 sqrt sum dot) (fun a b => decide (b ≤ a)) argsort
        (fun i => (x i : ℚ)) (fun i => (y i : ℚ))
      = (binary64 sqrt sum dot).mergesortTerms (fun a b => decide (b ≤ a)) argsort (fun i => (x i : ℚ)) (fun i => (y i : ℚ)) := by
  have hS := binary32m_intExact h hd
  have hD := binary64_intExact h64
  have hn' : (1 : ℤ) ≤ n := by exact_mod_cast hn
  have hXY : X ≤ X * Y := le_mul_of_one_le_right (by omega) hY
  have hYX : Y ≤ X * Y := le_mul_of_one_le_left (by omega) hX
  have hNX : (n : ℤ) * X ≤ n * (X * Y) := mul_le_mul_of_nonneg_left hXY (by omega)
  have hNY : (n : ℤ) * Y ≤ n * (X * Y) := mul_le_mul_of_nonneg_left hYX (by omega)
  have hNN : (n : ℤ) * (X * Y) ≤ n * (n * (X * Y)) := le_mul_of_one_le_left (by positivity) hn'
  have hX1 : X ≤ n * X := le_mul_of_one_le_left (by omega) hn'
  have hY1 : Y ≤ n * Y := le_mul_of_one_le_left (by omega) hn'
  have of32 : ∀ z : ℤ, |z| ≤ 2 ^ 24 → (binary32m sum32 dot32).ofInt z = (z : ℚ) := fun z hz => round32_int z hz
  have of64 : ∀ z : ℤ, |z| ≤ 2 ^ 24 → (binary64 sqrt sum dot).ofInt z = (z : ℚ) := fun z hz =>
    round64_int z (hz.trans (by norm_num))
  have hxM : ∀ i, |x i| ≤ 2 ^ 24 := fun i => (hx i).trans (by omega)
  have hyM : ∀ i, |y i| ≤ 2 ^ 24 := fun i => (hy i).trans (by omega)
  generalize hσ : (argsort fun i => (x i : ℚ)) = σ
  have aij : (binary32m sum32 dot32).computeAijbijTerm (fun a b : ℚ => decide (b ≤ a)) (fun i => (x (σ i) : ℚ)) (fun i => (y (σ i) : ℚ))
      = (binary64 sqrt sum dot).computeAijbijTerm (fun a b : ℚ => decide (b ≤ a)) (fun i => (x (σ i) : ℚ)) (fun i => (y (σ i) : ℚ)) := by
    have g1 := hS.computeAijbijTerm (isGe_le (R := ℚ)) (fun i => x (σ i)) (fun i => y (σ i)) hX hY (fun i => hx _) (fun i => hy _) hn hM
    have g2 := hD.computeAijbijTerm (isGe_le (R := ℚ)) (fun i => x (σ i)) (fun i => y (σ i)) hX hY (fun i => hx _) (fun i => hy _) hn
      (hM.trans (by norm_num))
    have c1 : (fun i => (binary32m sum32 dot32).ofInt (x (σ i))) = fun i => (x (σ i) : ℚ) := funext fun i => of32 _ (hxM _)
    have c2 : (fun i => (binary64 sqrt sum dot).ofInt (x (σ i))) = fun i => (x (σ i) : ℚ) := funext fun i => of64 _ (hxM _)
    have c3 : ∀ i, (binary32m sum32 dot32).ofInt (y (σ i)) = (y (σ i) : ℚ) := fun i => of32 _ (hyM _)
    have c4 : ∀ i, (binary64 sqrt sum dot).ofInt (y (σ i)) = (y (σ i) : ℚ) := fun i => of64 _ (hyM _)
    simp only [c1, c3] at g1
    simp only [c2, c4] at g2
    rw [g1, g2]
    congr 1
    have hb : |∑ j, ∑ i, ((if i < j ∧ decide (((y (σ j) : ℤ) : ℚ) ≤ (y (σ i) : ℤ)) = false then (4 : ℤ) else 0) - 1)
        * ((x (σ j) - x (σ i)) * (y (σ j) - y (σ i)))| ≤ 2 ^ 24 := by
      have b : ∀ i j : Fin n, |((if i < j ∧ decide (((y (σ j) : ℤ) : ℚ) ≤ (y (σ i) : ℤ)) = false then (4 : ℤ) else 0) - 1)
        * ((x (σ j) - x (σ i)) * (y (σ j) - y (σ i)))| ≤ 12 * (X * Y) := fun i j => by
        have h1 : |x (σ j) - x (σ i)| ≤ 2 * X := (abs_sub _ _).trans (by have := hx (σ i); have := hx (σ j); omega)
        have h2 : |y (σ j) - y (σ i)| ≤ 2 * Y := (abs_sub _ _).trans (by have := hy (σ i); have := hy (σ j); omega)
        have h3 := abs_mul_le h1 h2
        have h4 : |(if i < j ∧ decide (((y (σ j) : ℤ) : ℚ) ≤ (y (σ i) : ℤ)) = false then (4 : ℤ) else 0) - 1| ≤ 3 := by
          split_ifs <;> norm_num
        exact (abs_mul_le h4 h3).trans (le_of_eq (by ring))
      refine (Finset.abs_sum_le_sum_abs _ _).trans ?_
      calc _ ≤ ∑ _j : Fin n, (n : ℤ) * (12 * (X * Y)) := Finset.sum_le_sum fun j _ =>
            (Finset.abs_sum_le_sum_abs _ _).trans (sum_abs_le fun i => b i j)
        _ = 12 * (n * (n * (X * Y))) := by simp; ring
        _ ≤ 2 ^ 24 := by
          have : 0 ≤ (n : ℤ) * (n * (X * Y)) := by positivity
          omega
    rw [of32 _ hb, of64 _ hb]
  have r1 := rowSumsSingle_int h hd h64 hn (fun i => x (σ i)) hX (fun i => hx _) (by omega)
  have r2 := fun τ : Equiv.Perm (Fin n) => rowSumsSingle_int h hd h64 hn (fun i => y (σ (τ i))) hY (fun i => hy _) (by omega)
  unfold Arith.mergesortTermsSingle Arith.mergesortTerms
  dsimp only
  rw [hσ, aij, r1, r2]

end

end Dcor

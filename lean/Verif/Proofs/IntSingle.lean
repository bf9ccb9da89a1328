/-
The AVL method on integers in single precision: nothing is rounded while the sums fit into 24 bits.
-/
import Verif.Proofs.Binary64
import Verif.Proofs.Round32
import Verif.Proofs.Parametric

namespace Dcor

theorem round32_isInt {q : ℚ} (h : IsInt q) (hq : |q| ≤ 2 ^ 24) : round32 q = q := by
  obtain ⟨z, rfl⟩ := h
  exact round32_int z (by exact_mod_cast hq)

/-- A sum of integers is exact in any order. -/
theorem SumsTo32.exact {l : List ℚ} {r : ℚ} (h : SumsTo32 l r) :
    (∀ a ∈ l, IsInt a) → (l.map fun a => |a|).sum ≤ 2 ^ 24 → r = l.sum := by
  induction h with
  | nil => simp
  | single a => simp
  | @add l l' a b _ _ _ _ ih1 ih2 =>
    intro hl hs
    have e1 := abs_sum_nonneg l
    have e2 := abs_sum_nonneg l'
    have e3 := (abs_list_sum_le (l ++ l')).trans hs
    rw [List.map_append, List.sum_append] at hs
    rw [ih1 (fun a ha => hl a (by simp [ha])) (by linarith), ih2 (fun a ha => hl a (by simp [ha])) (by linarith),
      ← List.sum_append]
    exact round32_isInt (IsInt.list_sum hl) e3
  | @perm l l' a _ hp ih =>
    intro hl hs
    rw [← hp.sum_eq]
    apply ih (fun a ha => hl a (hp.mem_iff.1 ha))
    rwa [(hp.map _).sum_eq]

/-- `binary32` with a scalar product and a square root that are exact on small integers. The AVL method uses neither. -/
def binary32x (sum : List ℚ → ℚ) : Arith ℚ :=
  { binary32 sum with
    dot := fun l => round32 (l.map fun p => p.1 * p.2).sum
    sqrt := fun q => round32 (Int.sqrt q.num) }

variable {sum32 sum : List ℚ → ℚ} {sqrt : ℚ → ℚ} {dot : List (ℚ × ℚ) → ℚ} {n : ℕ}

theorem binary32_rel : (binary32 sum32).Rel (binary32x sum32) (fun a b => a = b) := by
  refine ⟨fun _ => rfl, ?_, ?_, ?_, ?_⟩
  · rintro a b _ _ rfl rfl; rfl
  · rintro a b _ _ rfl rfl; rfl
  · rintro a b _ _ rfl rfl; rfl
  · intro l l' hl
    rw [List.forall₂_eq_eq_eq] at hl
    subst hl
    rfl

theorem binary32_cumsum {m : ℕ} (v : Fin m → ℚ) : (binary32 sum32).cumsum v = (binary32x sum32).cumsum v :=
  funext (cumsum_rel binary32_rel fun _ => rfl)

theorem int_abs_sum_le (l : List ℤ) : |l.sum| ≤ (l.map fun a => |a|).sum := by
  induction l with
  | nil => simp
  | cons a l ih =>
    rw [List.sum_cons, List.map_cons, List.sum_cons]
    exact (abs_add_le _ _).trans (by linarith)

theorem binary32_intExact (h : ∀ l, SumsTo32 l (sum32 l)) : (binary32x sum32).IntExact (2 ^ 24) where
  add a b ha hb hab := by
    show round32 (round32 a + round32 b) = round32 ((a + b : ℤ) : ℚ)
    rw [round32_int a ha, round32_int b hb]
    push_cast
    rfl
  sub a b ha hb hab := by
    show round32 (round32 a - round32 b) = round32 ((a - b : ℤ) : ℚ)
    rw [round32_int a ha, round32_int b hb]
    push_cast
    rfl
  mul a b ha hb hab := by
    show round32 (round32 a * round32 b) = round32 ((a * b : ℤ) : ℚ)
    rw [round32_int a ha, round32_int b hb]
    push_cast
    rfl
  sum l hl := by
    show sum32 (l.map fun z : ℤ => round32 (z : ℚ)) = round32 ((l.sum : ℤ) : ℚ)
    have hmem : ∀ z ∈ l, |z| ≤ 2 ^ 24 := fun z hz =>
      (List.single_le_sum (l := l.map fun a => |a|) (by
        intro x hx
        obtain ⟨a, _, rfl⟩ := List.mem_map.1 hx
        exact abs_nonneg a) _ (List.mem_map_of_mem hz)).trans hl
    have e : (l.map fun z : ℤ => round32 z) = l.map fun z : ℤ => (z : ℚ) :=
      List.map_congr_left fun z hz => round32_int z (hmem z hz)
    have habs : ((l.map fun z : ℤ => (z : ℚ)).map fun a => |a|).sum = (((l.map fun a => |a|).sum : ℤ) : ℚ) := by
      rw [List.map_map, Int.cast_list_sum, List.map_map]
      congr 1
      apply List.map_congr_left
      intro z _
      simp
    have h1 := (h (l.map fun z : ℤ => (z : ℚ))).exact (by
      intro a ha
      obtain ⟨z, _, rfl⟩ := List.mem_map.1 ha
      exact ⟨z, rfl⟩) (by rw [habs]; exact_mod_cast hl)
    have h2 : (l.map fun z : ℤ => (z : ℚ)).sum = ((l.sum : ℤ) : ℚ) := by
      rw [Int.cast_list_sum]
    rw [e, h1, h2, round32_int]
    exact (int_abs_sum_le l).trans hl
  dot l hp hl := by
    show round32 ((l.map fun p : ℤ × ℤ => (round32 (p.1 : ℚ), round32 (p.2 : ℚ))).map fun p => p.1 * p.2).sum
      = round32 (((l.map fun p => p.1 * p.2).sum : ℤ) : ℚ)
    congr 1
    rw [List.map_map, Int.cast_list_sum, List.map_map]
    congr 1
    apply List.map_congr_left
    intro p hp'
    show round32 (p.1 : ℚ) * round32 (p.2 : ℚ) = ((p.1 * p.2 : ℤ) : ℚ)
    rw [round32_int _ (hp p hp').1, round32_int _ (hp p hp').2]
    push_cast
    rfl
  sqrt a ha := by
    show round32 (Int.sqrt (round32 ((a * a : ℤ) : ℚ)).num) = round32 ((|a| : ℤ) : ℚ)
    rw [round32_int (a * a) (by rw [abs_of_nonneg (mul_self_nonneg a)]; exact ha), Rat.num_intCast, Int.sqrt_eq,
      Int.natCast_natAbs]

section

variable (h : ∀ l, SumsTo32 l (sum32 l)) (h64 : IsFloat64 sqrt sum dot)

include h

/-- The row sums are exact. -/
theorem axisSingle_int (σ : Equiv.Perm (Fin n)) (x : Fin n → ℤ) {X : ℤ}
    (hX : 1 ≤ X) (hx : ∀ i, |x i| ≤ X) (hM : 4 * (n * X) ≤ 2 ^ 24) (i : Fin n) :
    Arith.axisSingle (binary32 sum32) (binary64 sqrt sum dot) σ (fun i => (x i : ℚ)) i
      = ((∑ q, sgnLt q (σ.symm i) * (x i - x (σ q)) : ℤ) : ℚ) := by
  rw [← axis_eq σ x i]
  have hS := binary32_intExact h
  have hn : (1 : ℤ) ≤ n := by exact_mod_cast i.pos
  have hnX : (n : ℤ) ≤ n * X := le_mul_of_one_le_right (by omega) hX
  have hXn : X ≤ n * X := le_mul_of_one_le_left (by omega) hn
  have hC : ∑ i, |x i| ≤ n * X := sum_abs_le hx
  have hp : ∑ k, |x (σ k)| = ∑ i, |x i| := sum_abs_perm σ x
  have hk := rank_bounds σ i
  have b1 := abs_bounds ((abs_sum_le_of Finset.univ Finset.univ le_rfl x).trans hC)
  have b2 := abs_bounds (hx i)
  have b3 := abs_bounds (hx (σ (σ.symm i)))
  have b4 := abs_bounds ((cumsum_abs_le (fun k => x (σ k)) (σ.symm i)).trans (hp.le.trans hC))
  have b5 := abs_bounds ((cumsum_sub_abs_le (fun k => x (σ k)) (σ.symm i)).trans (hp.le.trans hC))
  have b6 := abs_bounds (abs_mul_le (P := n) (a := 2 * (((σ.symm i : Fin n) : ℕ) : ℤ) - n)
    (abs_le.2 ⟨by omega, by omega⟩) (hx i))
  have ab : ∀ a : ℤ, -2 ^ 24 ≤ a → a ≤ 2 ^ 24 → |a| ≤ 2 ^ 24 := fun a h1 h2 => abs_le.2 ⟨h1, h2⟩
  have cast : (fun i => (x i : ℚ)) = fun i => (binary32x sum32).ofInt (x i) := by
    funext i
    have := abs_bounds (hx i)
    exact (round32_int _ (ab _ (by omega) (by omega))).symm
  have of32 : ∀ z : ℤ, |z| ≤ 2 ^ 24 → (binary32x sum32).ofInt z = (z : ℚ) := fun z hz => round32_int z hz
  unfold Arith.axisSingle
  dsimp only
  rw [scatter_perm, binary32_cumsum]
  show (binary64 sqrt sum dot).sub ((binary64 sqrt sum dot).add ((binary32x sum32).vsum fun i => (x i : ℚ)) _)
    ((binary32x sum32).imul 2 ((binary32x sum32).sub
      ((binary32x sum32).cumsum (fun k => (fun i => (x i : ℚ)) (σ k)) (σ.symm i))
        ((fun i => (x i : ℚ)) (σ (σ.symm i))))) = _
  rw [cast]
  dsimp only
  rw [hS.vsum x (by omega), hS.cumsum (fun k => x (σ k)) (by omega)]
  generalize (n : ℤ) * X = N at *
  generalize Dcor.cumsum (fun k => x (σ k)) (σ.symm i) = P at *
  generalize (∑ i, x i) = S at *
  rw [hS.sub P _ (ab _ (by omega) (by omega)) (ab _ (by omega) (by omega)) (ab _ (by omega) (by omega)),
    hS.imul 2 _ (ab _ (by omega) (by omega)) (ab _ (by omega) (by omega)) (ab _ (by omega) (by omega)),
    of32 _ (ab _ (by omega) (by omega)), of32 _ (ab _ (by omega) (by omega))]
  show round64 (round64 ((S : ℚ) + round64 (round64 ((2 * (((σ.symm i : Fin n) : ℕ) : ℤ) - n : ℤ) : ℚ) * (x i : ℚ)))
    - ((2 * (P - x (σ (σ.symm i))) : ℤ) : ℚ)) = _
  have ab' : ∀ a : ℤ, -2 ^ 24 ≤ a → a ≤ 2 ^ 24 → |a| ≤ 2 ^ 53 := fun a h1 h2 => (ab a h1 h2).trans (by norm_num)
  rw [round64_int _ (ab' _ (by omega) (by omega)), ← Int.cast_mul, round64_int _ (ab' _ (by omega) (by omega)),
    ← Int.cast_add, round64_int _ (ab' _ (by omega) (by omega)), ← Int.cast_sub,
    round64_int _ (ab' _ (by omega) (by omega))]

include h64

/-- The total sum is exact. -/
theorem totalSingle_int (σ : Equiv.Perm (Fin n)) (x : Fin n → ℤ) {X : ℤ}
    (hn : 0 < n) (hX : 1 ≤ X) (hx : ∀ i, |x i| ≤ X) (hM : 4 * (n * (n * X)) ≤ 2 ^ 24) :
    Arith.totalSingle (binary32 sum32) (binary64 sqrt sum dot) σ (fun i => (x i : ℚ))
      = ((∑ i, ∑ q, sgnLt q (σ.symm i) * (x i - x (σ q)) : ℤ) : ℚ) := by
  rw [← total_eq σ x]
  have hS := binary32_intExact h
  have hD := binary64_intExact h64
  have hn : (1 : ℤ) ≤ n := by exact_mod_cast hn
  have hnX : (n : ℤ) ≤ n * X := le_mul_of_one_le_right (by omega) hX
  have hXn : X ≤ n * X := le_mul_of_one_le_left (by omega) hn
  have hNn : n * X ≤ n * (n * X) := le_mul_of_one_le_left (by omega) hn
  have hC : ∑ i, |x i| ≤ n * X := sum_abs_le hx
  have hp : ∑ k, |x (σ k)| = ∑ i, |x i| := sum_abs_perm σ x
  have ab : ∀ a : ℤ, -2 ^ 24 ≤ a → a ≤ 2 ^ 24 → |a| ≤ 2 ^ 24 := fun a h1 h2 => abs_le.2 ⟨h1, h2⟩
  have ab' : ∀ a : ℤ, -2 ^ 24 ≤ a → a ≤ 2 ^ 24 → |a| ≤ 2 ^ 53 := fun a h1 h2 => (ab a h1 h2).trans (by norm_num)
  have of32 : ∀ z : ℤ, |z| ≤ 2 ^ 24 → (binary32x sum32).ofInt z = (z : ℚ) := fun z hz => round32_int z hz
  have of64 : ∀ z : ℤ, |z| ≤ 2 ^ 53 → (binary64 sqrt sum dot).ofInt z = (z : ℚ) := fun z hz => round64_int z hz
  have cast : (fun i => (x i : ℚ)) = fun i => (binary32x sum32).ofInt (x i) := by
    funext i
    have := abs_bounds (hx i)
    exact (of32 _ (ab _ (by omega) (by omega))).symm
  have c1 : ∀ i, |(((σ.symm i : Fin n) : ℕ) : ℤ) * x i| ≤ n * X := fun i =>
    abs_mul_le (abs_le.2 ⟨by have := rank_bounds σ i; omega, (rank_bounds σ i).2⟩) (hx i)
  have c2 : ∀ i, |Dcor.cumsum (fun k => x (σ k)) (σ.symm i) - x (σ (σ.symm i))| ≤ n * X := fun i =>
    (cumsum_sub_abs_le (fun k => x (σ k)) (σ.symm i)).trans (hp.le.trans hC)
  have s1 := sum_abs_le c1
  have s2 := sum_abs_le c2
  have b1 := abs_bounds ((Finset.abs_sum_le_sum_abs (fun i => (((σ.symm i : Fin n) : ℕ) : ℤ) * x i) Finset.univ).trans s1)
  have b2 := abs_bounds ((Finset.abs_sum_le_sum_abs
    (fun i => Dcor.cumsum (fun k => x (σ k)) (σ.symm i) - x (σ (σ.symm i))) Finset.univ).trans s2)
  have e1 : ∀ i, (binary64 sqrt sum dot).imul (((σ.symm i : Fin n) : ℕ) : ℤ) (x i : ℚ)
      = (binary64 sqrt sum dot).ofInt ((((σ.symm i : Fin n) : ℕ) : ℤ) * x i) := fun i => by
    have := rank_bounds σ i
    have b2 := abs_bounds (hx i)
    have b1 := abs_bounds (c1 i)
    rw [← of64 (x i) (ab' _ (by omega) (by omega))]
    exact hD.imul _ _ (ab' _ (by omega) (by omega)) (ab' _ (by omega) (by omega)) (ab' _ (by omega) (by omega))
  have e2 : ∀ i, (binary32x sum32).sub ((binary32x sum32).cumsum (fun k => (x (σ k) : ℚ)) (σ.symm i)) (x (σ (σ.symm i)) : ℚ)
      = (binary32x sum32).ofInt (Dcor.cumsum (fun k => x (σ k)) (σ.symm i) - x (σ (σ.symm i))) := fun i => by
    have b1 := abs_bounds (c2 i)
    have b2 := abs_bounds (hx (σ (σ.symm i)))
    have b4 := abs_bounds ((cumsum_abs_le (fun k => x (σ k)) (σ.symm i)).trans (hp.le.trans hC))
    rw [show (fun k => (x (σ k) : ℚ)) = fun k => (binary32x sum32).ofInt (x (σ k)) from
      funext fun k => congrFun cast (σ k), hS.cumsum (fun k => x (σ k)) (by omega), ← of32 (x (σ (σ.symm i)))
        (ab _ (by omega) (by omega))]
    exact hS.sub _ _ (ab _ (by omega) (by omega)) (ab _ (by omega) (by omega)) (ab _ (by omega) (by omega))
  unfold Arith.totalSingle
  simp only [scatter_perm, binary32_cumsum]
  show (binary64 sqrt sum dot).sub ((binary64 sqrt sum dot).imul 2 ((binary64 sqrt sum dot).vsum fun i =>
      (binary64 sqrt sum dot).imul (((σ.symm i : Fin n) : ℕ) : ℤ) (x i : ℚ)))
    ((binary32x sum32).imul 2 ((binary32x sum32).vsum fun i => (binary32x sum32).sub
      ((binary32x sum32).cumsum (fun k => (x (σ k) : ℚ)) (σ.symm i)) (x (σ (σ.symm i)) : ℚ))) = _
  simp only [e1, e2]
  rw [hD.vsum _ (by omega), hS.vsum _ (by omega)]
  rw [hD.imul 2 _ (ab' _ (by omega) (by omega)) (ab' _ (by omega) (by omega)) (ab' _ (by omega) (by omega)),
    hS.imul 2 _ (ab _ (by omega) (by omega)) (ab _ (by omega) (by omega)) (ab _ (by omega) (by omega)),
    of32 _ (ab _ (by omega) (by omega)), ← of64 _ (ab' _ (by omega) (by omega)),
    hD.sub _ _ (ab' _ (by omega) (by omega)) (ab' _ (by omega) (by omega)) (ab' _ (by omega) (by omega)),
    of64 _ (ab' _ (by omega) (by omega))]

end

end Dcor

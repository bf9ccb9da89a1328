/-
The row sums of the AVL method in two precisions, on integers that are exact in both.
-/
import Verif.Proofs.Float16

namespace Dcor

open F64

section generic

variable {R : Type} {S D : Arith R} {M : ℤ} {n : ℕ} (hS : S.IntExact M) (hD : D.IntExact M)
  (hSD : ∀ z : ℤ, |z| ≤ M → S.ofInt z = D.ofInt z)

include hS hD hSD

/-- The row sums are exact. -/
theorem axisSingle_exact (σ : Equiv.Perm (Fin n)) (x : Fin n → ℤ) {X : ℤ} (hX : 1 ≤ X) (hx : ∀ i, |x i| ≤ X)
    (hM : 4 * (n * X) ≤ M) (i : Fin n) :
    Arith.axisSingle S D σ (fun i => S.ofInt (x i)) i = D.ofInt (∑ q, sgnLt q (σ.symm i) * (x i - x (σ q))) := by
  rw [← axis_eq σ x i]
  have hn : (1 : ℤ) ≤ n := by exact_mod_cast i.pos
  have hnX : (n : ℤ) ≤ n * X := le_mul_of_one_le_right (by omega) hX
  have hXn : X ≤ n * X := le_mul_of_one_le_left (by omega) hn
  have hC : ∑ i, |x i| ≤ n * X := sum_abs_le hx
  have hp : ∑ k, |x (σ k)| = ∑ i, |x i| := sum_abs_perm σ x
  have hk := rank_bounds σ i
  have b1 := abs_bounds ((abs_sum_le_of Finset.univ Finset.univ le_rfl x).trans hC)
  have b2 := abs_bounds (hx i)
  have b3 := abs_bounds (hx (σ (σ.symm i)))
  have b4 := abs_bounds ((cumsum_abs_le (fun k => x (σ k)) (σ.symm i)).trans (hp.le.trans hC))
  have b5 := abs_bounds ((cumsum_sub_abs_le (fun k => x (σ k)) (σ.symm i)).trans (hp.le.trans hC))
  have b6 := abs_bounds (abs_mul_le (P := n) (a := 2 * (((σ.symm i : Fin n) : ℕ) : ℤ) - n)
    (abs_le.2 ⟨by omega, by omega⟩) (hx i))
  have ab : ∀ a : ℤ, -M ≤ a → a ≤ M → |a| ≤ M := fun a h1 h2 => abs_le.2 ⟨h1, h2⟩
  unfold Arith.axisSingle
  dsimp only
  rw [scatter_perm]
  simp only [id_eq]
  rw [hS.vsum x (by omega), hS.cumsum (fun k => x (σ k)) (by omega)]
  generalize (n : ℤ) * X = N at *
  generalize Dcor.cumsum (fun k => x (σ k)) (σ.symm i) = P at *
  generalize (∑ i, x i) = T at *
  rw [hS.sub P _ (ab _ (by omega) (by omega)) (ab _ (by omega) (by omega)) (ab _ (by omega) (by omega)),
    hS.imul 2 _ (ab _ (by omega) (by omega)) (ab _ (by omega) (by omega)) (ab _ (by omega) (by omega)),
    hSD _ (ab _ (by omega) (by omega)), hSD _ (ab _ (by omega) (by omega)), hSD _ (ab _ (by omega) (by omega)),
    hD.imul _ _ (ab _ (by omega) (by omega)) (ab _ (by omega) (by omega)) (ab _ (by omega) (by omega)),
    hD.add _ _ (ab _ (by omega) (by omega)) (ab _ (by omega) (by omega)) (ab _ (by omega) (by omega)),
    hD.sub _ _ (ab _ (by omega) (by omega)) (ab _ (by omega) (by omega)) (ab _ (by omega) (by omega))]

/-- The total sum is exact. -/
theorem totalSingle_exact (σ : Equiv.Perm (Fin n)) (x : Fin n → ℤ) {X : ℤ} (hn : 0 < n) (hX : 1 ≤ X) (hx : ∀ i, |x i| ≤ X)
    (hM : 4 * (n * (n * X)) ≤ M) :
    Arith.totalSingle S D σ (fun i => S.ofInt (x i)) = D.ofInt (∑ i, ∑ q, sgnLt q (σ.symm i) * (x i - x (σ q))) := by
  rw [← total_eq σ x]
  have hn : (1 : ℤ) ≤ n := by exact_mod_cast hn
  have hnX : (n : ℤ) ≤ n * X := le_mul_of_one_le_right (by omega) hX
  have hXn : X ≤ n * X := le_mul_of_one_le_left (by omega) hn
  have hNn : n * X ≤ n * (n * X) := le_mul_of_one_le_left (by omega) hn
  have hC : ∑ i, |x i| ≤ n * X := sum_abs_le hx
  have hp : ∑ k, |x (σ k)| = ∑ i, |x i| := sum_abs_perm σ x
  have ab : ∀ a : ℤ, -M ≤ a → a ≤ M → |a| ≤ M := fun a h1 h2 => abs_le.2 ⟨h1, h2⟩
  have c1 : ∀ i, |(((σ.symm i : Fin n) : ℕ) : ℤ) * x i| ≤ n * X := fun i =>
    abs_mul_le (abs_le.2 ⟨by have := rank_bounds σ i; omega, (rank_bounds σ i).2⟩) (hx i)
  have c2 : ∀ i, |Dcor.cumsum (fun k => x (σ k)) (σ.symm i) - x (σ (σ.symm i))| ≤ n * X := fun i =>
    (cumsum_sub_abs_le (fun k => x (σ k)) (σ.symm i)).trans (hp.le.trans hC)
  have s1 := sum_abs_le c1
  have s2 := sum_abs_le c2
  have b1 := abs_bounds ((Finset.abs_sum_le_sum_abs (fun i => (((σ.symm i : Fin n) : ℕ) : ℤ) * x i) Finset.univ).trans s1)
  have b2 := abs_bounds ((Finset.abs_sum_le_sum_abs
    (fun i => Dcor.cumsum (fun k => x (σ k)) (σ.symm i) - x (σ (σ.symm i))) Finset.univ).trans s2)
  have e1 : ∀ i, D.imul (((σ.symm i : Fin n) : ℕ) : ℤ) (S.ofInt (x i)) = D.ofInt ((((σ.symm i : Fin n) : ℕ) : ℤ) * x i) :=
    fun i => by
    have := rank_bounds σ i
    have b2 := abs_bounds (hx i)
    have b1 := abs_bounds (c1 i)
    rw [hSD _ (ab _ (by omega) (by omega))]
    exact hD.imul _ _ (ab _ (by omega) (by omega)) (ab _ (by omega) (by omega)) (ab _ (by omega) (by omega))
  have e2 : ∀ i, S.sub (S.cumsum (fun k => S.ofInt (x (σ k))) (σ.symm i)) (S.ofInt (x (σ (σ.symm i))))
      = S.ofInt (Dcor.cumsum (fun k => x (σ k)) (σ.symm i) - x (σ (σ.symm i))) := fun i => by
    have b1 := abs_bounds (c2 i)
    have b2 := abs_bounds (hx (σ (σ.symm i)))
    have b4 := abs_bounds ((cumsum_abs_le (fun k => x (σ k)) (σ.symm i)).trans (hp.le.trans hC))
    rw [hS.cumsum (fun k => x (σ k)) (by omega)]
    exact hS.sub _ _ (ab _ (by omega) (by omega)) (ab _ (by omega) (by omega)) (ab _ (by omega) (by omega))
  unfold Arith.totalSingle
  simp only [scatter_perm, id_eq]
  simp only [e1, e2]
  rw [hD.vsum _ (by omega), hS.vsum _ (by omega)]
  rw [hD.imul 2 _ (ab _ (by omega) (by omega)) (ab _ (by omega) (by omega)) (ab _ (by omega) (by omega)),
    hS.imul 2 _ (ab _ (by omega) (by omega)) (ab _ (by omega) (by omega)) (ab _ (by omega) (by omega)),
    hSD _ (ab _ (by omega) (by omega)),
    hD.sub _ _ (ab _ (by omega) (by omega)) (ab _ (by omega) (by omega)) (ab _ (by omega) (by omega))]

end generic

theorem F64.round_shortInt (z : ℤ) (hz : |z| ≤ 2 ^ 11) : F64.round (z : ℚ) = fin z := by
  unfold F64.round
  rcases eq_or_ne z 0 with rfl | h0
  · decide +kernel
  · have h1 : (1 : ℚ) ≤ |(z : ℚ)| := by exact_mod_cast Int.one_le_abs h0
    have h2 : |(z : ℚ)| ≤ 2 ^ 11 := by exact_mod_cast hz
    have h3 : ¬ |(z : ℚ)| < 1 / 2 ^ 1022 := by
      rw [not_lt]
      exact le_trans (by rw [div_le_one (by positivity)]; exact one_le_pow₀ (by norm_num)) h1
    have h4 : ¬ 2 ^ 1024 ≤ |(z : ℚ)| := by
      rw [not_le]
      exact h2.trans_lt (pow_lt_pow_right₀ (by norm_num) (by norm_num))
    simp only [if_neg h3, round64_int z (hz.trans (by norm_num)), if_neg h4]

/-- A sum of small integers is exact in any order. -/
theorem F64.Sums.exact {l : List F64} {r : F64} (h : Sums l r) :
    ∀ k : List ℤ, l = k.map (fun z : ℤ => fin z) → (k.map fun a => |a|).sum ≤ 2 ^ 11 → r = fin (k.sum : ℤ) := by
  induction h with
  | nil =>
    intro k e _
    have : k = [] := by simpa using e.symm
    simp [this]
  | single a =>
    intro k e _
    obtain ⟨z, rfl⟩ : ∃ z, k = [z] := by
      rw [← List.length_eq_one_iff]
      simpa using (congrArg List.length e).symm
    simpa using e
  | @add l l' a b _ _ _ _ ih1 ih2 =>
    intro k e hs
    obtain ⟨k1, k2, rfl, e1, e2⟩ := List.map_eq_append_iff.1 e.symm
    have e3 := (int_abs_sum_le (k1 ++ k2)).trans hs
    rw [List.map_append, List.sum_append] at hs
    have n1 : 0 ≤ (k1.map fun a => |a|).sum := List.sum_nonneg (by simp)
    have n2 : 0 ≤ (k2.map fun a => |a|).sum := List.sum_nonneg (by simp)
    rw [ih1 k1 e1.symm (by omega), ih2 k2 e2.symm (by omega), List.sum_append]
    rw [List.sum_append] at e3
    show F64.round _ = _
    rw [← Int.cast_add, F64.round_shortInt _ e3]
  | @perm l l' a _ hp ih =>
    intro k e hs
    rw [e] at hp
    obtain ⟨k', rfl, hk⟩ : Relation.Comp (· = List.map (fun z : ℤ => fin z) ·) (List.Perm · ·) l k := by
      rw [List.eq_map_comp_perm]
      exact hp
    rw [ih k' rfl (by rwa [(hk.map _).sum_eq]), hk.sum_eq]

/-- `ieee64` with a scalar product and a square root that are exact on small integers. The row sums use neither. -/
def ieee64x (sum : List F64 → F64) : Arith F64 :=
  ieee64 (fun a => match a with
    | fin q => F64.round (Int.sqrt q.num)
    | a => a) sum fun l => sum (l.map fun p => F64.mul p.1 p.2)

theorem ieee64_sum_exact {sum : List F64 → F64} (h : ∀ l, F64.Sums l (sum l)) (l : List ℤ)
    (hl : (l.map fun a => |a|).sum ≤ 2 ^ 11) : sum (l.map fun z : ℤ => F64.round z) = F64.round ((l.sum : ℤ) : ℚ) := by
  have hmem : ∀ z ∈ l, |z| ≤ 2 ^ 11 := fun z hz =>
    (List.single_le_sum (l := l.map fun a => |a|) (by
      intro x hx
      obtain ⟨a, _, rfl⟩ := List.mem_map.1 hx
      exact abs_nonneg a) _ (List.mem_map_of_mem hz)).trans hl
  have e : (l.map fun z : ℤ => F64.round z) = l.map fun z : ℤ => fin z :=
    List.map_congr_left fun z hz => F64.round_shortInt z (hmem z hz)
  rw [e, (h _).exact l rfl hl, F64.round_shortInt _ ((int_abs_sum_le l).trans hl)]

theorem ieee64_intExact {sum : List F64 → F64} (h : ∀ l, F64.Sums l (sum l)) : (ieee64x sum).IntExact (2 ^ 11) where
  add a b ha hb hab := by
    show F64.add (F64.round a) (F64.round b) = F64.round ((a + b : ℤ) : ℚ)
    rw [F64.round_shortInt a ha, F64.round_shortInt b hb]
    push_cast
    rfl
  sub a b ha hb hab := by
    show F64.sub (F64.round a) (F64.round b) = F64.round ((a - b : ℤ) : ℚ)
    rw [F64.round_shortInt a ha, F64.round_shortInt b hb]
    show F64.round ((a : ℚ) + -(b : ℚ)) = _
    rw [← sub_eq_add_neg]
    push_cast
    rfl
  mul a b ha hb hab := by
    show F64.mul (F64.round a) (F64.round b) = F64.round ((a * b : ℤ) : ℚ)
    rw [F64.round_shortInt a ha, F64.round_shortInt b hb]
    push_cast
    rfl
  sum l hl := ieee64_sum_exact h l hl
  dot l hp hl := by
    show sum ((l.map fun p : ℤ × ℤ => (F64.round (p.1 : ℚ), F64.round (p.2 : ℚ))).map fun p => F64.mul p.1 p.2)
      = F64.round (((l.map fun p => p.1 * p.2).sum : ℤ) : ℚ)
    rw [← ieee64_sum_exact h _ (by rwa [List.map_map]), List.map_map, List.map_map]
    congr 1
    apply List.map_congr_left
    intro p hp'
    show F64.mul (F64.round (p.1 : ℚ)) (F64.round (p.2 : ℚ)) = F64.round ((p.1 * p.2 : ℤ) : ℚ)
    rw [F64.round_shortInt _ (hp p hp').1, F64.round_shortInt _ (hp p hp').2]
    push_cast
    rfl
  sqrt a ha := by
    show (match F64.round ((a * a : ℤ) : ℚ) with
      | fin q => F64.round (Int.sqrt q.num)
      | a => a) = F64.round ((|a| : ℤ) : ℚ)
    rw [F64.round_shortInt (a * a) (by rw [abs_of_nonneg (mul_self_nonneg a)]; exact ha)]
    dsimp only
    rw [Rat.num_intCast, Int.sqrt_eq, Int.natCast_natAbs]

end Dcor

/-
The mergesort terms are the sums of the definition.
-/
import Verif.Proofs.MergePass
import Verif.Proofs.AvlTerms

namespace Dcor

section ring

variable {R : Type} [CommRing R] {n : ℕ}

/-- Mergesort terms in terms of the sorting permutations: `σ` sorts `x`, `τ` sorts `y ∘ σ`. -/
def mergeSpecTerms (ge : R → R → Bool) (σ τ : Equiv.Perm (Fin n)) (x y : Fin n → R) :
    CoreTerms R n where
  meanProd := ∑ j, ∑ i, ((if i < j ∧ ge (y (σ i)) (y (σ j)) = false then 4 else 0) - 1)
    * ((x (σ j) - x (σ i)) * (y (σ j) - y (σ i)))
  aAxis := fun i => ∑ q, sgnLt q i * (x (σ i) - x (σ q))
  aTotal := ∑ i, ∑ q, sgnLt q i * (x (σ i) - x (σ q))
  bAxis := fun i => ∑ q, sgnLt q (τ.symm i) * (y (σ i) - y (σ (τ q)))
  bTotal := ∑ i, ∑ q, sgnLt q (τ.symm i) * (y (σ i) - y (σ (τ q)))

theorem computeAijbijTerm_eq {ge : R → R → Bool} (hge : IsGe ge) (x y : Fin n → R) :
    ∃ u, computeAijbijTerm ge x y = .ok (∑ j, ∑ i,
      ((if i < j ∧ ge (y i) (y j) = false then 4 else 0) - 1)
        * ((x j - x i) * (y j - y i)), u) := by
  obtain ⟨π, u, e, _⟩ := computeWeightSums_eq hge y
    (fun i => (![1, y i, x i, x i * y i] : Fin 4 → R))
  refine ⟨u, ?_⟩
  unfold computeAijbijTerm
  simp only
  rw [e]
  simp only [Except.ok_bind', Except.pure_eq]
  congr 2
  simp only [Finset.sum_apply, Matrix.cons_val_zero, Matrix.cons_val_one, Matrix.cons_val]
  have hS : ∑ j, ∑ i, ((if i < j ∧ ge (y i) (y j) = false then 4 else 0) - 1)
        * ((x j - x i) * (y j - y i))
      = 4 * (∑ j, ∑ i ∈ Finset.univ.filter (fun i : Fin n => i < j ∧ ge (y i) (y j) = false),
          ((x j - x i) * (y j - y i))) - ∑ j, ∑ i, ((x j - x i) * (y j - y i)) := by
    rw [Finset.mul_sum, ← Finset.sum_sub_distrib]
    apply Finset.sum_congr rfl
    intro j _
    rw [Finset.mul_sum, Finset.sum_filter, ← Finset.sum_sub_distrib]
    apply Finset.sum_congr rfl
    intro i _
    split_ifs <;> ring
  have hC : ∑ j, ∑ i, ((x j - x i) * (y j - y i))
      = 2 * ((∑ i, (n : R) * x i * y i) - (∑ i, ((∑ k, x k) * y i + (∑ k, y k) * x i))
        + (∑ i, x i) * ∑ i, y i) := by
    have h1 : ∀ j, ∑ i, ((x j - x i) * (y j - y i))
        = (n : R) * x j * y j - x j * (∑ i, y i) - (∑ i, x i) * y j + ∑ i, x i * y i := by
      intro j
      have : ∀ i, (x j - x i) * (y j - y i) = x j * y j - x j * y i - x i * y j + x i * y i := by
        intro i; ring
      simp only [this, Finset.sum_add_distrib, Finset.sum_sub_distrib, ← Finset.mul_sum,
        ← Finset.sum_mul, Finset.sum_const, Finset.card_univ, Fintype.card_fin, nsmul_eq_mul]
      ring
    simp only [h1, Finset.sum_add_distrib, Finset.sum_sub_distrib, ← Finset.mul_sum,
        ← Finset.sum_mul, Finset.sum_const, Finset.card_univ, Fintype.card_fin, nsmul_eq_mul,
        mul_assoc]
    ring
  have hD : ∑ j, ∑ i ∈ Finset.univ.filter (fun i : Fin n => i < j ∧ ge (y i) (y j) = false),
          ((x j - x i) * (y j - y i))
      = (∑ j, x j * y j * ∑ _i ∈ Finset.univ.filter
            (fun i : Fin n => i < j ∧ ge (y i) (y j) = false), 1)
        - (∑ j, x j * ∑ i ∈ Finset.univ.filter
            (fun i : Fin n => i < j ∧ ge (y i) (y j) = false), y i)
        - (∑ j, y j * ∑ i ∈ Finset.univ.filter
            (fun i : Fin n => i < j ∧ ge (y i) (y j) = false), x i)
        + ∑ j, ∑ i ∈ Finset.univ.filter
            (fun i : Fin n => i < j ∧ ge (y i) (y j) = false), x i * y i := by
    rw [← Finset.sum_sub_distrib, ← Finset.sum_sub_distrib, ← Finset.sum_add_distrib]
    apply Finset.sum_congr rfl
    intro j _
    rw [Finset.mul_sum, Finset.mul_sum, Finset.mul_sum, ← Finset.sum_sub_distrib,
      ← Finset.sum_sub_distrib, ← Finset.sum_add_distrib]
    apply Finset.sum_congr rfl
    intro i _
    ring
  rw [hS, hC, hD]

theorem computeRowSums_eq (hn : 0 < n) (x : Fin n → R) :
    computeRowSums x = .ok (fun i => ∑ q, sgnLt q i * (x i - x q)) := by
  unfold computeRowSums
  rw [dif_pos hn]
  simp only
  congr 1
  funext i
  have hl : cumsum x ⟨n - 1, by omega⟩ = ∑ q, x q := by
    rw [cumsum_eq_ite]
    apply Finset.sum_congr rfl
    intro q _
    rw [if_pos]
    rw [Fin.le_def]
    simp only
    omega
  have h1 := axis_eq (Equiv.refl (Fin n)) x i
  simp only [Equiv.refl_symm, Equiv.refl_apply] at h1
  rw [← h1, hl]
  push_cast
  ring

/-- The mergesort implementation never fails for non-empty samples and returns
`mergeSpecTerms`, in any ring, for any `argsort` and any total preorder comparison. -/
theorem mergesortTermsImpl_eq {ge : R → R → Bool} (hge : IsGe ge)
    (argsort : (Fin n → R) → Equiv.Perm (Fin n)) (x y : Fin n → R) (hn : 0 < n) :
    ∃ u, mergesortTermsImpl ge argsort x y
      = .ok (mergeSpecTerms ge (argsort x) (argsort fun i => y (argsort x i)) x y, u) := by
  obtain ⟨u, e⟩ := computeAijbijTerm_eq hge (fun i => x (argsort x i)) (fun i => y (argsort x i))
  refine ⟨u, ?_⟩
  unfold mergesortTermsImpl
  simp only
  rw [e]
  simp only [Except.ok_bind', computeRowSums_eq hn, Except.pure_eq]
  congr 2
  unfold mergeSpecTerms
  have hb : scatter (fun _ => (0 : R)) (⇑(argsort fun i => y (argsort x i)))
      (fun i => ∑ q, sgnLt q i * (y (argsort x ((argsort fun i => y (argsort x i)) i))
        - y (argsort x ((argsort fun i => y (argsort x i)) q))))
      = fun i => ∑ q, sgnLt q ((argsort fun i => y (argsort x i)).symm i) *
        (y (argsort x i) - y (argsort x ((argsort fun i => y (argsort x i)) q))) := by
    funext i
    rw [scatter_perm]
    simp
  rw [hb]

end ring

section ordered

variable {R : Type} [CommRing R] [LinearOrder R] [IsStrictOrderedRing R] {n : ℕ}

omit [CommRing R] [IsStrictOrderedRing R] in
/-- `>=` of a linear order. -/
theorem isGe_le : IsGe (fun a b : R => decide (b ≤ a)) :=
  ⟨fun a b => by simpa using le_total b a, fun a b c h1 h2 => by
    simp only [decide_eq_true_eq] at *; exact le_trans h2 h1⟩

theorem mergeSpecTerms_eq (σ τ : Equiv.Perm (Fin n)) (x y : Fin n → R)
    (hσ : Monotone fun i => x (σ i)) (hτ : Monotone fun i => y (σ (τ i))) :
    mergeSpecTerms (fun a b : R => decide (b ≤ a)) σ τ x y =
      { meanProd := ∑ i, ∑ j, |x i - x j| * |y i - y j|
        aAxis := fun i => ∑ j, |x (σ i) - x j|
        aTotal := ∑ i, ∑ j, |x i - x j|
        bAxis := fun i => ∑ j, |y (σ i) - y j|
        bTotal := ∑ i, ∑ j, |y i - y j| } := by
  have hx : ∀ i, ∑ q, sgnLt q i * (x (σ i) - x (σ q)) = ∑ j, |x (σ i) - x j| := by
    intro i
    rw [← Equiv.sum_comp σ (fun j => |x (σ i) - x j|)]
    exact Finset.sum_congr rfl fun q _ => sgn_mul_abs _ hσ q i
  have hy : ∀ i, ∑ q, sgnLt q (τ.symm i) * (y (σ i) - y (σ (τ q))) = ∑ j, |y (σ i) - y j| := by
    intro i
    rw [← Equiv.sum_comp (τ.trans σ) (fun j => |y (σ i) - y j|)]
    apply Finset.sum_congr rfl
    intro q _
    have := sgn_mul_abs _ hτ q (τ.symm i)
    simpa using this
  unfold mergeSpecTerms
  simp only [hx, hy]
  congr 1
  · -- split into i < j and i > j
    have hsum : ∀ f : Fin n → Fin n → R, ∑ j, ∑ i, (f j i) = ∑ j, ∑ i, f i j :=
      fun f => Finset.sum_comm
    rw [← Equiv.sum_comp σ (fun i => ∑ j, |x i - x j| * |y i - y j|)]
    have hR : ∀ r, ∑ j, |x (σ r) - x j| * |y (σ r) - y j|
        = ∑ q, |x (σ r) - x (σ q)| * |y (σ r) - y (σ q)| := fun r =>
      (Equiv.sum_comp σ (fun j => |x (σ r) - x j| * |y (σ r) - y j|)).symm
    simp only [hR]
    have h2 : ∀ f g : Fin n → Fin n → R, (∀ i j, f j i + f i j = g j i + g i j) →
        ∑ j, ∑ i, f j i = ∑ j, ∑ i, g j i := by
      intro f g h
      have : (2 : R) * ∑ j, ∑ i, f j i = 2 * ∑ j, ∑ i, g j i := by
        rw [two_mul, two_mul]
        conv_lhs => arg 2; rw [hsum]
        conv_rhs => arg 2; rw [hsum]
        rw [← Finset.sum_add_distrib, ← Finset.sum_add_distrib]
        apply Finset.sum_congr rfl
        intro j _
        rw [← Finset.sum_add_distrib, ← Finset.sum_add_distrib]
        exact Finset.sum_congr rfl fun i _ => h i j
      exact mul_left_cancel₀ two_ne_zero this
    apply h2
    have key : ∀ i j : Fin n, i < j →
        ((if i < j ∧ decide (y (σ j) ≤ y (σ i)) = false then 4 else 0) - 1)
          * ((x (σ j) - x (σ i)) * (y (σ j) - y (σ i)))
        + ((if j < i ∧ decide (y (σ i) ≤ y (σ j)) = false then 4 else 0) - 1)
          * ((x (σ i) - x (σ j)) * (y (σ i) - y (σ j)))
        = |x (σ j) - x (σ i)| * |y (σ j) - y (σ i)|
          + |x (σ i) - x (σ j)| * |y (σ i) - y (σ j)| := by
      intro i j hij
      have hxx : x (σ i) ≤ x (σ j) := hσ hij.le
      rw [abs_sub_comm (x (σ i)), abs_sub_comm (y (σ i)), abs_of_nonneg (sub_nonneg.2 hxx)]
      have hji : ¬ j < i := not_lt.2 hij.le
      by_cases hle : y (σ j) ≤ y (σ i)
      · rw [abs_of_nonpos (sub_nonpos.2 hle)]
        simp [hle, hji]
        ring
      · rw [abs_of_pos (sub_pos.2 (not_le.1 hle))]
        simp [hle, hji, hij]
        ring
    intro i j
    rcases lt_trichotomy i j with h | h | h
    · exact key i j h
    · subst h; simp
    · rw [add_comm, key j i h, add_comm]
  · exact Equiv.sum_comp σ (fun i => ∑ j, |x i - x j|)
  · exact Equiv.sum_comp σ (fun i => ∑ j, |y i - y j|)

end ordered

end Dcor

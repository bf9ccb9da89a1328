/-
The mergesort and naive methods on integers, in an arithmetic that is exact on small integers.
-/
import Verif.Proofs.IntExact

namespace Dcor

variable {R : Type} {A : Arith R} {M : ℤ} {n : ℕ}

theorem filter_sum_abs_le {m : ℕ} (T : Finset (Fin m)) {v : Fin m → ℤ} {X : ℤ} (hv : ∀ i, |v i| ≤ X) :
    |∑ i ∈ T, v i| ≤ m * X :=
  (abs_sum_le_of T Finset.univ (Finset.subset_univ _) v).trans (sum_abs_le hv)

theorem Arith.IntExact.computeAijbijTerm (h : A.IntExact M) {ge : R → R → Bool} (hge : IsGe ge) (x y : Fin n → ℤ)
    {X Y : ℤ} (hX : 1 ≤ X) (hY : 1 ≤ Y) (hx : ∀ i, |x i| ≤ X) (hy : ∀ i, |y i| ≤ Y) (hn : 0 < n)
    (hM : 16 * (n * (n * (X * Y))) ≤ M) :
    A.computeAijbijTerm ge (fun i => A.ofInt (x i)) (fun i => A.ofInt (y i))
      = .ok (A.ofInt (∑ j, ∑ i, ((if i < j ∧ ge (A.ofInt (y i)) (A.ofInt (y j)) = false then 4 else 0) - 1)
        * ((x j - x i) * (y j - y i)))) := by
  have hn : (1 : ℤ) ≤ n := by exact_mod_cast hn
  have hXY : X ≤ X * Y := le_mul_of_one_le_right (by omega) hY
  have hYX : Y ≤ X * Y := le_mul_of_one_le_left (by omega) hX
  have hN : X * Y ≤ n * (X * Y) := le_mul_of_one_le_left (by omega) (by omega)
  have hNN : n * (X * Y) ≤ n * (n * (X * Y)) := le_mul_of_one_le_left (by omega) hn
  have hnN : (n : ℤ) ≤ n * (X * Y) := le_mul_of_one_le_right (by omega) (by omega)
  have hNX : (n : ℤ) * X ≤ n * (X * Y) := mul_le_mul_of_nonneg_left hXY (by omega)
  have hNY : (n : ℤ) * Y ≤ n * (X * Y) := mul_le_mul_of_nonneg_left hYX (by omega)
  have ab : ∀ a : ℤ, -M ≤ a → a ≤ M → |a| ≤ M := fun a h1 h2 => abs_le.2 ⟨h1, h2⟩
  have hge' : IsGe fun a b : ℤ => ge (A.ofInt a) (A.ofInt b) :=
    ⟨fun a b => hge.total _ _, fun a b c h1 h2 => hge.trans _ _ _ h1 h2⟩
  obtain ⟨u, eu⟩ := computeAijbijTerm_eq hge' x y
  have cxy : ∀ i, |x i * y i| ≤ X * Y := fun i => abs_mul_le (hx _) (hy _)
  -- the exact computation
  have eE := eu
  unfold Dcor.computeAijbijTerm at eE
  obtain ⟨π₀, u₀, e₀, _⟩ := Dcor.computeWeightSums_eq hge' y (fun i => (![1, y i, x i, x i * y i] : Fin 4 → ℤ))
  simp only at eE
  rw [e₀] at eE
  simp only [Except.ok_bind', Except.pure_eq, Finset.sum_apply, Matrix.cons_val_zero, Matrix.cons_val_one,
    Matrix.cons_val, Except.ok.injEq, Prod.mk.injEq] at eE
  -- the weight sums
  have hw : ∀ (T : Finset (Fin n)) (v : Fin 4), |∑ t ∈ T, (![1, y t, x t, x t * y t] : Fin 4 → ℤ) v| ≤ n * (X * Y) := by
    intro T v
    apply filter_sum_abs_le
    intro i
    fin_cases v
    · exact (show |(1 : ℤ)| ≤ X * Y by rw [abs_one]; omega)
    · exact (hy i).trans hYX
    · exact (hx i).trans hXY
    · exact cxy i
  obtain ⟨π, u', e, _⟩ := Arith.computeWeightSums_eq h.embeds hge (fun i => A.ofInt (y i))
    (fun i => (![1, y i, x i, x i * y i] : Fin 4 → ℤ)) (fun T v => (hw T v).trans (by omega))
  have exy : ∀ i, A.mul (A.ofInt (x i)) (A.ofInt (y i)) = A.ofInt (x i * y i) := fun i => by
    have b1 := abs_bounds (hx i)
    have b2 := abs_bounds (hy i)
    have b3 := abs_bounds (cxy i)
    exact h.mul _ _ (ab _ (by omega) (by omega)) (ab _ (by omega) (by omega)) (ab _ (by omega) (by omega))
  have ew : (fun i v => A.ofInt ((![1, y i, x i, x i * y i] : Fin 4 → ℤ) v))
      = fun i => (![A.ofInt 1, A.ofInt (y i), A.ofInt (x i), A.ofInt (x i * y i)] : Fin 4 → R) := by
    funext i v
    fin_cases v <;> rfl
  rw [ew] at e
  unfold Arith.computeAijbijTerm
  simp only [exy]
  rw [e]
  simp only [Except.ok_bind', Except.pure_eq, Matrix.cons_val_zero, Matrix.cons_val_one, Matrix.cons_val]
  congr 1
  -- the value is bounded
  have hval : |∑ j, ∑ i, ((if i < j ∧ ge (A.ofInt (y i)) (A.ofInt (y j)) = false then 4 else 0) - 1)
        * ((x j - x i) * (y j - y i))| ≤ n * (n * (3 * (4 * (X * Y)))) := by
    refine (Finset.abs_sum_le_sum_abs _ _).trans (sum_abs_le fun j => ?_)
    refine (Finset.abs_sum_le_sum_abs _ _).trans (sum_abs_le fun i => ?_)
    apply abs_mul_le
    · split_ifs <;> norm_num
    · have := abs_mul_le (a := x j - x i) (b := y j - y i) (P := 2 * X) (Q := 2 * Y)
        (by have := abs_bounds (hx i); have := abs_bounds (hx j); exact abs_le.2 ⟨by omega, by omega⟩)
        (by have := abs_bounds (hy i); have := abs_bounds (hy j); exact abs_le.2 ⟨by omega, by omega⟩)
      exact this.trans (le_of_eq (by ring))
  have hval' := abs_bounds (hval.trans (le_of_eq (show (n : ℤ) * (n * (3 * (4 * (X * Y)))) = 12 * (n * (n * (X * Y))) by ring)))
  rw [← eE.1] at hval' ⊢
  clear eE hval eu e e₀ ew
  have w0 : ∀ j, |∑ _i ∈ Finset.univ.filter (fun i : Fin n => i < j ∧ ge (A.ofInt (y i)) (A.ofInt (y j)) = false),
      (1 : ℤ)| ≤ n * 1 := fun j => filter_sum_abs_le (v := fun _ => (1 : ℤ)) _ (fun _ => by simp)
  have w1 : ∀ j, |∑ i ∈ Finset.univ.filter (fun i : Fin n => i < j ∧ ge (A.ofInt (y i)) (A.ofInt (y j)) = false),
      y i| ≤ n * Y := fun j => filter_sum_abs_le _ hy
  have w2 : ∀ j, |∑ i ∈ Finset.univ.filter (fun i : Fin n => i < j ∧ ge (A.ofInt (y i)) (A.ofInt (y j)) = false),
      x i| ≤ n * X := fun j => filter_sum_abs_le _ hx
  have w3 : ∀ j, |∑ i ∈ Finset.univ.filter (fun i : Fin n => i < j ∧ ge (A.ofInt (y i)) (A.ofInt (y j)) = false),
      x i * y i| ≤ n * (X * Y) := fun j => filter_sum_abs_le _ cxy
  have p0 : ∀ j, |x j * y j * ∑ _i ∈ Finset.univ.filter
      (fun i : Fin n => i < j ∧ ge (A.ofInt (y i)) (A.ofInt (y j)) = false), (1 : ℤ)| ≤ n * (X * Y) := fun j =>
    (abs_mul_le (cxy j) (w0 j)).trans (le_of_eq (by ring))
  have p1 : ∀ j, |x j * ∑ i ∈ Finset.univ.filter
      (fun i : Fin n => i < j ∧ ge (A.ofInt (y i)) (A.ofInt (y j)) = false), y i| ≤ n * (X * Y) := fun j =>
    (abs_mul_le (hx j) (w1 j)).trans (le_of_eq (by ring))
  have p2 : ∀ j, |y j * ∑ i ∈ Finset.univ.filter
      (fun i : Fin n => i < j ∧ ge (A.ofInt (y i)) (A.ofInt (y j)) = false), x i| ≤ n * (X * Y) := fun j =>
    (abs_mul_le (hy j) (w2 j)).trans (le_of_eq (by ring))
  have s0 := sum_abs_le p0
  have s1 := sum_abs_le p1
  have s2 := sum_abs_le p2
  have s3 := sum_abs_le w3
  rw [h.vdot (fun i => x i * y i) _ (fun i => (cxy i).trans (by omega)) (fun i => (w0 i).trans (by omega))
      (s0.trans (by omega)),
    h.vdot x _ (fun i => (hx i).trans (by omega)) (fun i => (w1 i).trans (by omega)) (s1.trans (by omega)),
    h.vdot y _ (fun i => (hy i).trans (by omega)) (fun i => (w2 i).trans (by omega)) (s2.trans (by omega)),
    h.vsum _ (s3.trans (by omega)), h.vsum x ((sum_abs_le hx).trans (by omega)),
    h.vsum y ((sum_abs_le hy).trans (by omega))]
  have t0 := abs_bounds ((Finset.abs_sum_le_sum_abs _ _).trans s0)
  have t1 := abs_bounds ((Finset.abs_sum_le_sum_abs _ _).trans s1)
  have t2 := abs_bounds ((Finset.abs_sum_le_sum_abs _ _).trans s2)
  have t3 := abs_bounds ((Finset.abs_sum_le_sum_abs _ _).trans s3)
  have hsx : |∑ i, x i| ≤ n * X := filter_sum_abs_le _ hx
  have hsy : |∑ i, y i| ≤ n * Y := filter_sum_abs_le _ hy
  have bsx := abs_bounds hsx
  have bsy := abs_bounds hsy
  generalize (∑ i, x i) = SX at *
  generalize (∑ i, y i) = SY at *
  have hnx : ∀ i, |(n : ℤ) * x i| ≤ n * X := fun i => abs_mul_le (abs_of_nonneg (by omega)).le (hx i)
  have hxs : ∀ i, A.imul n (A.ofInt (x i)) = A.ofInt ((n : ℤ) * x i) := fun i => by
    have b1 := abs_bounds (hx i)
    have b2 := abs_bounds (hnx i)
    exact h.imul _ _ (ab _ (by omega) (by omega)) (ab _ (by omega) (by omega)) (ab _ (by omega) (by omega))
  have hc1 : ∀ i, |SX * y i| ≤ n * (X * Y) := fun i => (abs_mul_le hsx (hy i)).trans (le_of_eq (by ring))
  have hc2 : ∀ i, |SY * x i| ≤ n * (X * Y) := fun i => (abs_mul_le hsy (hx i)).trans (le_of_eq (by ring))
  have hc : ∀ i, A.add (A.mul (A.ofInt SX) (A.ofInt (y i))) (A.mul (A.ofInt SY) (A.ofInt (x i)))
      = A.ofInt (SX * y i + SY * x i) := fun i => by
    have b1 := abs_bounds (hc1 i)
    have b2 := abs_bounds (hc2 i)
    have b3 := abs_bounds (hx i)
    have b4 := abs_bounds (hy i)
    rw [h.mul _ _ (ab _ (by omega) (by omega)) (ab _ (by omega) (by omega)) (ab _ (by omega) (by omega)),
      h.mul _ _ (ab _ (by omega) (by omega)) (ab _ (by omega) (by omega)) (ab _ (by omega) (by omega)),
      h.add _ _ (ab _ (by omega) (by omega)) (ab _ (by omega) (by omega)) (ab _ (by omega) (by omega))]
  simp only [hxs, hc]
  have hc3 : ∀ i, |SX * y i + SY * x i| ≤ 2 * (n * (X * Y)) := fun i => by
    have b1 := abs_bounds (hc1 i)
    have b2 := abs_bounds (hc2 i)
    exact abs_le.2 ⟨by omega, by omega⟩
  have s4 := sum_abs_le hc3
  have hd : ∀ i, |(n : ℤ) * x i * y i| ≤ n * (X * Y) := fun i =>
    (abs_mul_le (hnx i) (hy i)).trans (le_of_eq (by ring))
  have s5 := sum_abs_le hd
  have t4 := abs_bounds ((Finset.abs_sum_le_sum_abs _ _).trans s4)
  have t5 := abs_bounds ((Finset.abs_sum_le_sum_abs _ _).trans s5)
  have t6 := abs_bounds (abs_mul_le hsx hsy)
  have e6 : (n : ℤ) * X * (n * Y) = n * (n * (X * Y)) := by ring
  have e4 : (n : ℤ) * (2 * (n * (X * Y))) = 2 * (n * (n * (X * Y))) := by ring
  rw [e6] at t6
  rw [e4] at t4 s4
  rw [h.vdot (fun i => (n : ℤ) * x i) y (fun i => (hnx i).trans (by omega)) (fun i => (hy i).trans (by omega))
      (s5.trans (by omega)), h.vsum _ (s4.trans (by omega)),
    h.mul SX SY (ab _ (by omega) (by omega)) (ab _ (by omega) (by omega)) (ab _ (by omega) (by omega))]
  generalize (∑ i, (n : ℤ) * x i * y i) = Z5 at *
  generalize (∑ i, (SX * y i + SY * x i)) = Z4 at *
  generalize (∑ j, x j * y j * ∑ _i ∈ Finset.univ.filter
      (fun i : Fin n => i < j ∧ ge (A.ofInt (y i)) (A.ofInt (y j)) = false), (1 : ℤ)) = Z0 at *
  generalize (∑ j, x j * ∑ i ∈ Finset.univ.filter
      (fun i : Fin n => i < j ∧ ge (A.ofInt (y i)) (A.ofInt (y j)) = false), y i) = Z1 at *
  generalize (∑ j, y j * ∑ i ∈ Finset.univ.filter
      (fun i : Fin n => i < j ∧ ge (A.ofInt (y i)) (A.ofInt (y j)) = false), x i) = Z2 at *
  generalize (∑ j, ∑ i ∈ Finset.univ.filter
      (fun i : Fin n => i < j ∧ ge (A.ofInt (y i)) (A.ofInt (y j)) = false), x i * y i) = Z3 at *
  generalize SX * SY = Z6 at *
  clear w0 w1 w2 w3 p0 p1 p2 s0 s1 s2 s3 s4 s5 hc hc1 hc2 hc3 hd hnx hxs hx hy cxy exy hw hge' hge
  generalize (n : ℤ) * (n * (X * Y)) = N2 at *
  rw [h.sub Z0 Z1 (ab _ (by omega) (by omega)) (ab _ (by omega) (by omega)) (ab _ (by omega) (by omega)),
    h.sub _ Z2 (ab _ (by omega) (by omega)) (ab _ (by omega) (by omega)) (ab _ (by omega) (by omega)),
    h.add _ Z3 (ab _ (by omega) (by omega)) (ab _ (by omega) (by omega)) (ab _ (by omega) (by omega)),
    h.sub Z5 Z4 (ab _ (by omega) (by omega)) (ab _ (by omega) (by omega)) (ab _ (by omega) (by omega)),
    h.add _ _ (ab _ (by omega) (by omega)) (ab _ (by omega) (by omega)) (ab _ (by omega) (by omega)),
    h.imul 4 _ (ab _ (by omega) (by omega)) (ab _ (by omega) (by omega)) (ab _ (by omega) (by omega)),
    h.imul 2 _ (ab _ (by omega) (by omega)) (ab _ (by omega) (by omega)) (ab _ (by omega) (by omega)),
    h.sub _ _ (ab _ (by omega) (by omega)) (ab _ (by omega) (by omega)) (ab _ (by omega) (by omega))]

theorem Arith.IntExact.computeRowSums (h : A.IntExact M) (x : Fin n → ℤ) {X : ℤ} (hX : 1 ≤ X)
    (hx : ∀ i, |x i| ≤ X) (hn : 0 < n) (hM : 4 * (n * X) ≤ M) :
    A.computeRowSums (fun i => A.ofInt (x i)) = .ok fun i => A.ofInt (∑ q, sgnLt q i * (x i - x q)) := by
  have e := computeRowSums_eq hn x
  unfold Dcor.computeRowSums at e
  unfold Arith.computeRowSums
  rw [dif_pos hn] at e ⊢
  have hn' : (1 : ℤ) ≤ n := by exact_mod_cast hn
  have hnX : (n : ℤ) ≤ n * X := le_mul_of_one_le_right (by omega) hX
  have hXn : X ≤ n * X := le_mul_of_one_le_left (by omega) hn'
  have hC : ∑ i, |x i| ≤ n * X := sum_abs_le hx
  have ab : ∀ a : ℤ, -M ≤ a → a ≤ M → |a| ≤ M := fun a h1 h2 => abs_le.2 ⟨h1, h2⟩
  have hc : ∀ k, A.cumsum (fun i => A.ofInt (x i)) k = A.ofInt (Dcor.cumsum x k) := fun k =>
    h.cumsum x (by omega) k
  have e' := congrFun (Except.ok.inj e)
  dsimp only
  congr 1
  funext i
  rw [← e' i]
  simp only [hc]
  have b1 := abs_bounds ((cumsum_abs_le x ⟨n - 1, by omega⟩).trans hC)
  have b2 := abs_bounds ((cumsum_abs_le x i).trans hC)
  have hi : (0 : ℤ) ≤ ((i : ℕ) : ℤ) ∧ ((i : ℕ) : ℤ) + 1 ≤ n := ⟨by positivity, by exact_mod_cast i.2⟩
  push_cast
  have b3 := abs_bounds (abs_mul_le (P := n) (a := 2 * (((i : ℕ) : ℤ) + 1) - n)
    (abs_le.2 ⟨by omega, by omega⟩) (hx i))
  have b4 := abs_bounds (hx i)
  generalize (n : ℤ) * X = N at *
  generalize Dcor.cumsum x i = P at *
  generalize Dcor.cumsum x ⟨n - 1, _⟩ = S at *
  rw [h.imul 2 P (ab _ (by omega) (by omega)) (ab _ (by omega) (by omega)) (ab _ (by omega) (by omega)),
    h.sub S _ (ab _ (by omega) (by omega)) (ab _ (by omega) (by omega)) (ab _ (by omega) (by omega)),
    h.imul _ (x i) (ab _ (by omega) (by omega)) (ab _ (by omega) (by omega)) (ab _ (by omega) (by omega)),
    h.add _ _ (ab _ (by omega) (by omega)) (ab _ (by omega) (by omega)) (ab _ (by omega) (by omega))]

theorem sgn_diff_abs_le {x : Fin n → ℤ} {X : ℤ} (hx : ∀ i, |x i| ≤ X) (f : Fin n → Fin n) (k : Fin n) (a : ℤ)
    (ha : |a| ≤ X) : |∑ q, sgnLt q k * (a - x (f q))| ≤ n * (2 * X) := by
  refine (Finset.abs_sum_le_sum_abs _ _).trans (sum_abs_le fun q => ?_)
  have := abs_mul_le (a := sgnLt q k) (b := a - x (f q)) (P := 1) (Q := 2 * X) (by unfold sgnLt; split_ifs <;> simp)
    (by have := abs_bounds (hx (f q)); have := abs_bounds ha; exact abs_le.2 ⟨by omega, by omega⟩)
  rwa [one_mul] at this

/-- The mergesort method is exact on integers. -/
theorem Arith.IntExact.mergesortTerms (h : A.IntExact M) {ge : R → R → Bool} (hge : IsGe ge)
    (argsort : (Fin n → R) → Equiv.Perm (Fin n)) (x y : Fin n → ℤ) {X Y : ℤ} (hX : 1 ≤ X) (hY : 1 ≤ Y)
    (hx : ∀ i, |x i| ≤ X) (hy : ∀ i, |y i| ≤ Y) (hn : 0 < n) (hM : 16 * (n * (n * (X * Y))) ≤ M) :
    ∃ t, A.mergesortTerms ge argsort (fun i => A.ofInt (x i)) (fun i => A.ofInt (y i)) = .ok t ∧
      CoreRel (fun r z => r = A.ofInt z) t
        (mergeSpecTerms (fun a b => ge (A.ofInt a) (A.ofInt b)) (argsort fun i => A.ofInt (x i))
          (argsort fun i => A.ofInt (y (argsort (fun i => A.ofInt (x i)) i))) x y) := by
  have hn' : (1 : ℤ) ≤ n := by exact_mod_cast hn
  have hXY : X ≤ X * Y := le_mul_of_one_le_right (by omega) hY
  have hYX : Y ≤ X * Y := le_mul_of_one_le_left (by omega) hX
  have hNX : (n : ℤ) * X ≤ n * (X * Y) := mul_le_mul_of_nonneg_left hXY (by omega)
  have hNY : (n : ℤ) * Y ≤ n * (X * Y) := mul_le_mul_of_nonneg_left hYX (by omega)
  have hNNX : (n : ℤ) * (n * X) ≤ n * (n * (X * Y)) := mul_le_mul_of_nonneg_left hNX (by omega)
  have hNNY : (n : ℤ) * (n * Y) ≤ n * (n * (X * Y)) := mul_le_mul_of_nonneg_left hNY (by omega)
  have hnX : (n : ℤ) * X ≤ n * (n * X) := le_mul_of_one_le_left (by positivity) (by omega)
  have hnY : (n : ℤ) * Y ≤ n * (n * Y) := le_mul_of_one_le_left (by positivity) (by omega)
  have hX1 : X ≤ n * X := le_mul_of_one_le_left (by omega) hn'
  generalize hσ : (argsort fun i => A.ofInt (x i)) = σ
  generalize hτ : (argsort fun i => A.ofInt (y (σ i))) = τ
  unfold Arith.mergesortTerms
  simp only [hσ, hτ]
  rw [h.computeAijbijTerm hge (fun i => x (σ i)) (fun i => y (σ i)) hX hY (fun i => hx _) (fun i => hy _) hn hM]
  simp only [Except.ok_bind']
  rw [h.computeRowSums (fun i => x (σ i)) hX (fun i => hx _) hn (by omega)]
  simp only [Except.ok_bind']
  rw [h.computeRowSums (fun i => y (σ (τ i))) hY (fun i => hy _) hn (by omega)]
  simp only [Except.ok_bind', Except.pure_eq]
  have hb : scatter (fun _ => A.ofInt 0) τ (fun i => A.ofInt (∑ q, sgnLt q i * (y (σ (τ i)) - y (σ (τ q)))))
      = fun i => A.ofInt (∑ q, sgnLt q (τ.symm i) * (y (σ i) - y (σ (τ q)))) := by
    funext i
    rw [scatter_perm]
    simp
  rw [hb]
  have sa : ∑ i, |∑ q, sgnLt q i * (x (σ i) - x (σ q))| ≤ n * (n * (2 * X)) :=
    sum_abs_le fun i => sgn_diff_abs_le hx σ i _ (hx _)
  have sb : ∑ i, |∑ q, sgnLt q (τ.symm i) * (y (σ i) - y (σ (τ q)))| ≤ n * (n * (2 * Y)) :=
    sum_abs_le fun i => sgn_diff_abs_le hy (fun q => σ (τ q)) (τ.symm i) _ (hy _)
  have ea : (n : ℤ) * (n * (2 * X)) = 2 * (n * (n * X)) := by ring
  have eb : (n : ℤ) * (n * (2 * Y)) = 2 * (n * (n * Y)) := by ring
  refine ⟨_, rfl, ⟨rfl, fun i => rfl, ?_, fun i => rfl, ?_⟩⟩
  · exact h.vsum _ (sa.trans (by omega))
  · exact h.vsum _ (sb.trans (by omega))

/-- Distances between integers are exact. -/
theorem Arith.IntExact.euclidean (h : A.IntExact M) (x : Fin n → ℤ) {X : ℤ} (hX : 1 ≤ X) (hx : ∀ i, |x i| ≤ X)
    (hM : 4 * (X * X) ≤ M) (i j : Fin n) :
    A.euclidean (fun i (_ : Fin 1) => A.ofInt (x i)) i j = A.ofInt |x i - x j| := by
  have ab : ∀ a : ℤ, -M ≤ a → a ≤ M → |a| ≤ M := fun a h1 h2 => abs_le.2 ⟨h1, h2⟩
  have b1 := abs_bounds (hx i)
  have b2 := abs_bounds (hx j)
  have hXX : X ≤ X * X := le_mul_of_one_le_right (by omega) hX
  have b3 : |x i - x j| ≤ 2 * X := abs_le.2 ⟨by omega, by omega⟩
  have b4 := abs_bounds (abs_mul_le b3 b3)
  have e4 : 2 * X * (2 * X) = 4 * (X * X) := by ring
  rw [e4] at b4
  unfold Arith.euclidean
  dsimp only
  rw [h.sub _ _ (ab _ (by omega) (by omega)) (ab _ (by omega) (by omega)) (ab _ (by omega) (by omega)),
    h.mul _ _ (ab _ (by omega) (by omega)) (ab _ (by omega) (by omega)) (ab _ (by omega) (by omega)),
    h.vsum (m := 1) (fun _ => (x i - x j) * (x i - x j)) (by
      simp only [Finset.univ_unique, Finset.sum_const, Finset.card_singleton, one_smul]
      exact ab _ (by omega) (by omega))]
  simp only [Finset.univ_unique, Finset.sum_const, Finset.card_singleton, one_smul]
  exact h.sqrt _ (by omega)

theorem sum_flatMap_finRange (f : Fin n → Fin n → ℤ) :
    (((List.finRange n).flatMap fun i => (List.finRange n).map fun j => f i j)).sum = ∑ i, ∑ j, f i j := by
  have : ∀ l : List (Fin n), (l.flatMap fun i => (List.finRange n).map fun j => f i j).sum
      = (l.map fun i => ∑ j, f i j).sum := by
    intro l
    induction l with
    | nil => rfl
    | cons a l ih => rw [List.flatMap_cons, List.sum_append, ih, List.map_cons, List.sum_cons, ← List.ofFn_eq_map,
        List.sum_ofFn]
  rw [this, ← List.ofFn_eq_map, List.sum_ofFn]

theorem Arith.IntExact.mdot (h : A.IntExact M) (a b : Fin n → Fin n → ℤ) (ha : ∀ i j, |a i j| ≤ M)
    (hb : ∀ i j, |b i j| ≤ M) (hab : ∑ i, ∑ j, |a i j * b i j| ≤ M) :
    A.mdot (fun i j => A.ofInt (a i j)) (fun i j => A.ofInt (b i j)) = A.ofInt (∑ i, ∑ j, a i j * b i j) := by
  have e := h.dot ((List.finRange n).flatMap fun i => (List.finRange n).map fun j => (a i j, b i j)) (by
    intro p hp
    simp only [List.mem_flatMap, List.mem_map] at hp
    obtain ⟨i, _, j, _, rfl⟩ := hp
    exact ⟨ha i j, hb i j⟩) (by
    rw [List.map_flatMap]
    simp only [List.map_map, Function.comp_def]
    rw [sum_flatMap_finRange]
    exact hab)
  rw [List.map_flatMap, List.map_flatMap] at e
  simp only [List.map_map, Function.comp_def] at e
  rw [sum_flatMap_finRange] at e
  exact e

/-- The naive method is exact on integers. -/
theorem Arith.IntExact.naiveTerms (h : A.IntExact M) (x y : Fin n → ℤ) {X Y : ℤ} (hX : 1 ≤ X) (hY : 1 ≤ Y)
    (hx : ∀ i, |x i| ≤ X) (hy : ∀ i, |y i| ≤ Y) (hn : 0 < n) (hM : 4 * (n * (n * (X * Y))) ≤ M)
    (hMX : 4 * (X * X) ≤ M) (hMY : 4 * (Y * Y) ≤ M) :
    CoreRel (fun r z => r = A.ofInt z)
      (A.naiveTerms (A.euclidean fun i (_ : Fin 1) => A.ofInt (x i))
        (A.euclidean fun i (_ : Fin 1) => A.ofInt (y i))).core
      { meanProd := ∑ i, ∑ j, |x i - x j| * |y i - y j|
        aAxis := fun i => ∑ j, |x i - x j|
        aTotal := ∑ i, ∑ j, |x i - x j|
        bAxis := fun i => ∑ j, |y i - y j|
        bTotal := ∑ i, ∑ j, |y i - y j| } := by
  have hn' : (1 : ℤ) ≤ n := by exact_mod_cast hn
  have hXY : X ≤ X * Y := le_mul_of_one_le_right (by omega) hY
  have hYX : Y ≤ X * Y := le_mul_of_one_le_left (by omega) hX
  have hNX : (n : ℤ) * X ≤ n * (X * Y) := mul_le_mul_of_nonneg_left hXY (by omega)
  have hNY : (n : ℤ) * Y ≤ n * (X * Y) := mul_le_mul_of_nonneg_left hYX (by omega)
  have hNNX : (n : ℤ) * (n * X) ≤ n * (n * (X * Y)) := mul_le_mul_of_nonneg_left hNX (by omega)
  have hNNY : (n : ℤ) * (n * Y) ≤ n * (n * (X * Y)) := mul_le_mul_of_nonneg_left hNY (by omega)
  have hnX : (n : ℤ) * X ≤ n * (n * X) := le_mul_of_one_le_left (by positivity) (by omega)
  have hnY : (n : ℤ) * Y ≤ n * (n * Y) := le_mul_of_one_le_left (by positivity) (by omega)
  have hX1 : X ≤ n * X := le_mul_of_one_le_left (by omega) hn'
  have hY1 : Y ≤ n * Y := le_mul_of_one_le_left (by omega) hn'
  have ex : A.euclidean (fun i (_ : Fin 1) => A.ofInt (x i)) = fun i j => A.ofInt |x i - x j| := by
    funext i j; exact h.euclidean x hX hx hMX i j
  have ey : A.euclidean (fun i (_ : Fin 1) => A.ofInt (y i)) = fun i j => A.ofInt |y i - y j| := by
    funext i j; exact h.euclidean y hY hy hMY i j
  have dx : ∀ i j, |(|x i - x j|)| ≤ 2 * X := fun i j => by
    have := abs_bounds (hx i); have := abs_bounds (hx j)
    rw [abs_abs]; exact abs_le.2 ⟨by omega, by omega⟩
  have dy : ∀ i j, |(|y i - y j|)| ≤ 2 * Y := fun i j => by
    have := abs_bounds (hy i); have := abs_bounds (hy j)
    rw [abs_abs]; exact abs_le.2 ⟨by omega, by omega⟩
  have e4 : (n : ℤ) * (n * (2 * X * (2 * Y))) = 4 * (n * (n * (X * Y))) := by ring
  have ea : (n : ℤ) * (n * (2 * X)) = 2 * (n * (n * X)) := by ring
  have eb : (n : ℤ) * (n * (2 * Y)) = 2 * (n * (n * Y)) := by ring
  have ea' : (n : ℤ) * (2 * X) = 2 * (n * X) := by ring
  have eb' : (n : ℤ) * (2 * Y) = 2 * (n * Y) := by ring
  have rx : ∀ i, A.axisSum (fun i j => A.ofInt |x i - x j|) i = A.ofInt (∑ j, |x i - x j|) := fun i =>
    h.vsum _ ((sum_abs_le (dx i)).trans (by omega))
  have ry : ∀ i, A.axisSum (fun i j => A.ofInt |y i - y j|) i = A.ofInt (∑ j, |y i - y j|) := fun i =>
    h.vsum _ ((sum_abs_le (dy i)).trans (by omega))
  have cx : ∀ i, |(∑ j, |x i - x j|)| ≤ n * (2 * X) := fun i =>
    (Finset.abs_sum_le_sum_abs _ _).trans (sum_abs_le (dx i))
  have cy : ∀ i, |(∑ j, |y i - y j|)| ≤ n * (2 * Y) := fun i =>
    (Finset.abs_sum_le_sum_abs _ _).trans (sum_abs_le (dy i))
  rw [ex, ey]
  refine ⟨?_, rx, ?_, ry, ?_⟩
  · refine h.mdot _ _ (fun i j => (dx i j).trans (by omega)) (fun i j => (dy i j).trans (by omega)) ?_
    have : ∑ i, ∑ j, |(|x i - x j| * |y i - y j|)| ≤ n * (n * (2 * X * (2 * Y))) := by
      have h1 : ∀ i : Fin n, ∑ j, |(|x i - x j| * |y i - y j|)| ≤ n * (2 * X * (2 * Y)) := fun i =>
        sum_abs_le fun j => abs_mul_le (dx i j) (dy i j)
      have := Finset.sum_le_sum (s := Finset.univ) fun (i : Fin n) _ => h1 i
      simpa using this
    omega
  · show A.vsum (A.axisSum _) = _
    rw [show A.axisSum (fun i j => A.ofInt |x i - x j|) = fun i => A.ofInt (∑ j, |x i - x j|) from funext rx]
    exact h.vsum _ ((sum_abs_le cx).trans (by omega))
  · show A.vsum (A.axisSum _) = _
    rw [show A.axisSum (fun i j => A.ofInt |y i - y j|) = fun i => A.ofInt (∑ j, |y i - y j|) from funext ry]
    exact h.vsum _ ((sum_abs_le cy).trans (by omega))

end Dcor

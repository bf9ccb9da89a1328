/-
The mergesort method in two precisions, on integers that are exact in both.
-/
import Verif.Proofs.Float16Int
import Verif.Proofs.Float16Merge
import Verif.Proofs.ParametricMerge

namespace Dcor

open F64

section generic

variable {R : Type} {S D : Arith R} {M : ℤ} {n : ℕ} (hS : S.IntExact M) (hD : D.IntExact M)
  (hSD : ∀ z : ℤ, |z| ≤ M → S.ofInt z = D.ofInt z)

include hS hD hSD

/-- The row sums are exact. -/
theorem rowSumsSingle_exact (x : Fin n → ℤ) {X : ℤ} (hX : 1 ≤ X) (hx : ∀ i, |x i| ≤ X) (hn : 0 < n) (hM : 4 * (n * X) ≤ M) :
    Arith.rowSumsSingle S D (fun i => S.ofInt (x i)) = .ok fun i => D.ofInt (∑ q, sgnLt q i * (x i - x q)) := by
  have e := computeRowSums_eq hn x
  unfold Dcor.computeRowSums at e
  unfold Arith.rowSumsSingle
  rw [dif_pos hn] at e ⊢
  have hn' : (1 : ℤ) ≤ n := by exact_mod_cast hn
  have hnX : (n : ℤ) ≤ n * X := le_mul_of_one_le_right (by omega) hX
  have hXn : X ≤ n * X := le_mul_of_one_le_left (by omega) hn'
  have hC : ∑ i, |x i| ≤ n * X := sum_abs_le hx
  have ab : ∀ a : ℤ, -M ≤ a → a ≤ M → |a| ≤ M := fun a h1 h2 => abs_le.2 ⟨h1, h2⟩
  have hc : ∀ k, S.cumsum (fun i => S.ofInt (x i)) k = S.ofInt (Dcor.cumsum x k) := fun k =>
    hS.cumsum x (by omega) k
  have e' := congrFun (Except.ok.inj e)
  dsimp only
  congr 1
  funext i
  rw [← e' i]
  simp only [hc]
  have b1 := abs_bounds ((cumsum_abs_le x ⟨n - 1, by omega⟩).trans hC)
  have b2 := abs_bounds ((cumsum_abs_le x i).trans hC)
  have hi : (0 : ℤ) ≤ ((i : ℕ) : ℤ) ∧ ((i : ℕ) : ℤ) + 1 ≤ n := ⟨by positivity, by exact_mod_cast i.2⟩
  push_cast
  have b3 := abs_bounds (abs_mul_le (P := n) (a := 2 * (((i : ℕ) : ℤ) + 1) - n)
    (abs_le.2 ⟨by omega, by omega⟩) (hx i))
  have b4 := abs_bounds (hx i)
  generalize (n : ℤ) * X = N at *
  generalize Dcor.cumsum x i = P at *
  generalize Dcor.cumsum x ⟨n - 1, _⟩ = T at *
  rw [hS.imul 2 P (ab _ (by omega) (by omega)) (ab _ (by omega) (by omega)) (ab _ (by omega) (by omega)),
    hS.sub T _ (ab _ (by omega) (by omega)) (ab _ (by omega) (by omega)) (ab _ (by omega) (by omega)),
    hSD (x i) (ab _ (by omega) (by omega)), hSD _ (ab _ (by omega) (by omega)),
    hD.imul _ (x i) (ab _ (by omega) (by omega)) (ab _ (by omega) (by omega)) (ab _ (by omega) (by omega)),
    hD.add _ _ (ab _ (by omega) (by omega)) (ab _ (by omega) (by omega)) (ab _ (by omega) (by omega))]

/-- The terms are exact. -/
theorem mergesortTermsSingle_exact {ge : R → R → Bool} (hge : IsGe ge)
    (argsort : (Fin n → R) → Equiv.Perm (Fin n)) (x y : Fin n → ℤ) {X Y : ℤ} (hX : 1 ≤ X) (hY : 1 ≤ Y)
    (hx : ∀ i, |x i| ≤ X) (hy : ∀ i, |y i| ≤ Y) (hn : 0 < n) (hM : 16 * (n * (n * (X * Y))) ≤ M) :
    ∃ t, Arith.mergesortTermsSingle S D ge argsort (fun i => S.ofInt (x i)) (fun i => S.ofInt (y i)) = .ok t ∧
      CoreRel (fun r z => r = D.ofInt z ∧ |z| ≤ M) t
        (mergeSpecTerms (fun a b => ge (S.ofInt a) (S.ofInt b)) (argsort fun i => S.ofInt (x i))
          (argsort fun i => S.ofInt (y (argsort (fun i => S.ofInt (x i)) i))) x y) := by
  have hn' : (1 : ℤ) ≤ n := by exact_mod_cast hn
  have hXY : X ≤ X * Y := le_mul_of_one_le_right (by omega) hY
  have hYX : Y ≤ X * Y := le_mul_of_one_le_left (by omega) hX
  have hNX : (n : ℤ) * X ≤ n * (X * Y) := mul_le_mul_of_nonneg_left hXY (by omega)
  have hNY : (n : ℤ) * Y ≤ n * (X * Y) := mul_le_mul_of_nonneg_left hYX (by omega)
  have hNNX : (n : ℤ) * (n * X) ≤ n * (n * (X * Y)) := mul_le_mul_of_nonneg_left hNX (by omega)
  have hNNY : (n : ℤ) * (n * Y) ≤ n * (n * (X * Y)) := mul_le_mul_of_nonneg_left hNY (by omega)
  have hnX : (n : ℤ) * X ≤ n * (n * X) := le_mul_of_one_le_left (by positivity) (by omega)
  have hnY : (n : ℤ) * Y ≤ n * (n * Y) := le_mul_of_one_le_left (by positivity) (by omega)
  have hX1 : X ≤ n * X := le_mul_of_one_le_left (by omega) hn'
  generalize hσ : (argsort fun i => S.ofInt (x i)) = σ
  generalize hτ : (argsort fun i => S.ofInt (y (σ i))) = τ
  unfold Arith.mergesortTermsSingle
  simp only [hσ, hτ]
  rw [hS.computeAijbijTerm hge (fun i => x (σ i)) (fun i => y (σ i)) hX hY (fun i => hx _) (fun i => hy _) hn hM]
  simp only [Except.ok_bind']
  rw [rowSumsSingle_exact hS hD hSD (fun i => x (σ i)) hX (fun i => hx _) hn (by omega)]
  simp only [Except.ok_bind']
  rw [rowSumsSingle_exact hS hD hSD (fun i => y (σ (τ i))) hY (fun i => hy _) hn (by omega)]
  simp only [Except.ok_bind', Except.pure_eq]
  have hb : scatter (fun _ => D.ofInt 0) τ (fun i => D.ofInt (∑ q, sgnLt q i * (y (σ (τ i)) - y (σ (τ q)))))
      = fun i => D.ofInt (∑ q, sgnLt q (τ.symm i) * (y (σ i) - y (σ (τ q)))) := by
    funext i
    rw [scatter_perm]
    simp
  rw [hb]
  have ra := fun i => sgn_diff_abs_le hx σ i _ (hx (σ i))
  have rb := fun i => sgn_diff_abs_le hy (fun q => σ (τ q)) (τ.symm i) _ (hy (σ i))
  have sa : ∑ i, |∑ q, sgnLt q i * (x (σ i) - x (σ q))| ≤ n * (n * (2 * X)) := sum_abs_le ra
  have sb : ∑ i, |∑ q, sgnLt q (τ.symm i) * (y (σ i) - y (σ (τ q)))| ≤ n * (n * (2 * Y)) := sum_abs_le rb
  have ea : (n : ℤ) * (n * (2 * X)) = 2 * (n * (n * X)) := by ring
  have eb : (n : ℤ) * (n * (2 * Y)) = 2 * (n * (n * Y)) := by ring
  have ea' : (n : ℤ) * (2 * X) = 2 * (n * X) := by ring
  have eb' : (n : ℤ) * (2 * Y) = 2 * (n * Y) := by ring
  have hP : |∑ j, ∑ i, ((if i < j ∧ ge (S.ofInt (y (σ i))) (S.ofInt (y (σ j))) = false then (4 : ℤ) else 0) - 1)
      * ((x (σ j) - x (σ i)) * (y (σ j) - y (σ i)))| ≤ M := by
    have b : ∀ i j : Fin n, |((if i < j ∧ ge (S.ofInt (y (σ i))) (S.ofInt (y (σ j))) = false then (4 : ℤ) else 0) - 1)
        * ((x (σ j) - x (σ i)) * (y (σ j) - y (σ i)))| ≤ 12 * (X * Y) := fun i j => by
      have h1 : |x (σ j) - x (σ i)| ≤ 2 * X := (abs_sub _ _).trans (by have := hx (σ i); have := hx (σ j); omega)
      have h2 : |y (σ j) - y (σ i)| ≤ 2 * Y := (abs_sub _ _).trans (by have := hy (σ i); have := hy (σ j); omega)
      have h3 := abs_mul_le h1 h2
      have h4 : |(if i < j ∧ ge (S.ofInt (y (σ i))) (S.ofInt (y (σ j))) = false then (4 : ℤ) else 0) - 1| ≤ 3 := by
        split_ifs <;> norm_num
      exact (abs_mul_le h4 h3).trans (le_of_eq (by ring))
    refine (Finset.abs_sum_le_sum_abs _ _).trans ?_
    calc _ ≤ ∑ _j : Fin n, (n : ℤ) * (12 * (X * Y)) := Finset.sum_le_sum fun j _ =>
          (Finset.abs_sum_le_sum_abs _ _).trans (sum_abs_le fun i => b i j)
      _ = 12 * (n * (n * (X * Y))) := by simp; ring
      _ ≤ M := by
        have : 0 ≤ (n : ℤ) * (n * (X * Y)) := by positivity
        omega
  refine ⟨_, rfl, ⟨⟨hSD _ hP, hP⟩, fun i => ⟨rfl, (ra i).trans (by omega)⟩, ⟨?_, ?_⟩, fun i => ⟨rfl, (rb i).trans (by omega)⟩, ⟨?_, ?_⟩⟩⟩
  · exact hD.vsum _ (sa.trans (by omega))
  · exact (Finset.abs_sum_le_sum_abs _ _).trans (sa.trans (by omega))
  · exact hD.vsum _ (sb.trans (by omega))
  · exact (Finset.abs_sum_le_sum_abs _ _).trans (sb.trans (by omega))

end generic

/-- `>=` of the finite numbers, with everything else above them. -/
def geFin : F64 → F64 → Bool
  | fin a, fin b => decide (b ≤ a)
  | fin _, _ => false
  | _, _ => true

theorem isGe_geFin : IsGe geFin where
  total a b := by
    cases a <;> cases b <;> simp [geFin, le_total]
  trans a b c := by
    cases a <;> cases b <;> cases c <;> simp [geFin]
    exact fun h1 h2 => h2.trans h1

/-- The comparison is only used for the elements of `y`. -/
theorem computeAijbijTerm_ge {R : Type} (A : Arith R) {n : ℕ} {ge ge' : R → R → Bool} (x : Fin n → R) {y : Fin n → R}
    (h : ∀ i j, ge (y i) (y j) = ge' (y i) (y j)) : A.computeAijbijTerm ge x y = A.computeAijbijTerm ge' x y := by
  unfold Arith.computeAijbijTerm
  dsimp only
  have hr : MergeRel A A (fun (_ : Fin 4) a b => a = b) :=
    ⟨fun _ => rfl, by rintro _ a b _ _ rfl rfl; rfl, by rintro _ a b _ _ rfl rfl; rfl⟩
  have := computeWeightSums_rel hr (ge := ge) (ge' := ge') (y := y) (y' := y) h
    (w := fun i => ![A.ofInt 1, y i, x i, A.mul (x i) (y i)]) (w' := fun i => ![A.ofInt 1, y i, x i, A.mul (x i) (y i)])
    (fun _ _ => rfl)
  obtain ⟨r, er, _⟩ := computeWeightSums_safe A ge y (fun i => (![A.ofInt 1, y i, x i, A.mul (x i) (y i)] : Fin 4 → R))
  obtain ⟨r', er', _⟩ := computeWeightSums_safe A ge' y (fun i => (![A.ofInt 1, y i, x i, A.mul (x i) (y i)] : Fin 4 → R))
  rw [er, er'] at this ⊢
  have e : r.2.1 = r'.2.1 := funext fun i => funext fun v => this.2.1 i v
  simp only [Except.ok_bind']
  rw [e]

variable {sum16 sum : List F64 → F64} {sqrt : F64 → F64} {dot16 dot : List (F64 × F64) → F64} {n : ℕ}

theorem ieee16m_intExact (h : F16.IsSum sum16) (hd : F16.IsDot dot16) : (ieee16m sum16 dot16).IntExact (2 ^ 11) where
  add := (ieee16_intExact h).add
  sub := (ieee16_intExact h).sub
  mul := (ieee16_intExact h).mul
  sum := (ieee16_intExact h).sum
  sqrt := (ieee16_intExact h).sqrt
  dot l hp hl := by
    show dot16 (l.map fun p : ℤ × ℤ => (F16.round (p.1 : ℚ), F16.round (p.2 : ℚ))) = F16.round (((l.map fun p => p.1 * p.2).sum : ℤ) : ℚ)
    obtain ⟨r, hr, e⟩ := hd (l.map fun p : ℤ × ℤ => (F16.round (p.1 : ℚ), F16.round (p.2 : ℚ)))
    have e' : ((l.map fun p : ℤ × ℤ => (F16.round (p.1 : ℚ), F16.round (p.2 : ℚ))).map fun p => F16.mul32 p.1 p.2)
        = (l.map fun p => p.1 * p.2).map fun z : ℤ => fin z := by
      rw [List.map_map, List.map_map]
      apply List.map_congr_left
      intro p hp'
      show F16.mul32 (F16.round (p.1 : ℚ)) (F16.round (p.2 : ℚ)) = fin ((p.1 * p.2 : ℤ) : ℚ)
      rw [F16.round_int _ (hp p hp').1, F16.round_int _ (hp p hp').2]
      push_cast
      rfl
    rw [e, hr.exact (l.map fun p => p.1 * p.2) e' (by rwa [List.map_map])]
    rfl

/-- The terms of the mergesort method on small integers of dtype `float16`. -/
theorem mergesortTermsHalf_int (h16 : F16.IsSum sum16) (hd : F16.IsDot dot16) (h64 : ∀ l, F64.Sums l (sum l))
    {ge : F64 → F64 → Bool} (hge : ∀ a b : ℚ, ge (fin a) (fin b) = decide (b ≤ a))
    (argsort : (Fin n → F64) → Equiv.Perm (Fin n)) {x y : Fin n → ℤ} {X Y : ℤ} (hX : 1 ≤ X) (hY : 1 ≤ Y) (hx : ∀ i, |x i| ≤ X)
    (hy : ∀ i, |y i| ≤ Y) (hn : 0 < n) (hM : 16 * ((n : ℤ) * (n * (X * Y))) ≤ 2 ^ 11) :
    Arith.mergesortTermsSingle (ieee16m sum16 dot16) (ieee64 sqrt sum dot) ge argsort (fun i => fin (x i)) (fun i => fin (y i))
      = .ok
        (let t := mergeSpecTerms (fun a b : ℤ => decide (b ≤ a)) (argsort fun i => fin (x i))
          (argsort fun i => fin (y (argsort (fun i => fin (x i)) i))) x y
        { meanProd := fin t.meanProd
          aAxis := fun i => fin (t.aAxis i)
          aTotal := fin t.aTotal
          bAxis := fun i => fin (t.bAxis i)
          bTotal := fin t.bTotal }) := by
  have hn' : (1 : ℤ) ≤ n := by exact_mod_cast hn
  have hXY : X ≤ X * Y := le_mul_of_one_le_right (by omega) hY
  have hYX : Y ≤ X * Y := le_mul_of_one_le_left (by omega) hX
  have h1 : X * Y ≤ n * (X * Y) := le_mul_of_one_le_left (by omega) hn'
  have h2 : (n : ℤ) * (X * Y) ≤ n * (n * (X * Y)) := le_mul_of_one_le_left (by positivity) hn'
  have ofI : ∀ z : ℤ, |z| ≤ 2 ^ 11 → (ieee16m sum16 dot16).ofInt z = fin (z : ℚ) := fun z hz => F16.round_int z hz
  have ofD : ∀ z : ℤ, |z| ≤ 2 ^ 11 → (ieee64x sum).ofInt z = fin (z : ℚ) := fun z hz => F64.round_shortInt z hz
  have ofX : ∀ i, (ieee16m sum16 dot16).ofInt (x i) = fin (x i : ℚ) := fun i => ofI _ ((hx i).trans (by omega))
  have ofY : ∀ i, (ieee16m sum16 dot16).ofInt (y i) = fin (y i : ℚ) := fun i => ofI _ ((hy i).trans (by omega))
  have hSD : ∀ z : ℤ, |z| ≤ 2 ^ 11 → (ieee16m sum16 dot16).ofInt z = (ieee64x sum).ofInt z := fun z hz =>
    (ofI z hz).trans (ofD z hz).symm
  obtain ⟨t, e, ht⟩ := mergesortTermsSingle_exact (ieee16m_intExact h16 hd) (ieee64_intExact h64) hSD isGe_geFin argsort x y hX hY
    hx hy hn hM
  simp only [ofX, ofY] at e ht
  have e1 : Arith.mergesortTermsSingle (ieee16m sum16 dot16) (ieee64 sqrt sum dot) ge argsort (fun i => fin (x i)) (fun i => fin (y i))
      = Arith.mergesortTermsSingle (ieee16m sum16 dot16) (ieee64x sum) geFin argsort (fun i => fin (x i)) (fun i => fin (y i)) := by
    unfold Arith.mergesortTermsSingle
    dsimp only
    rw [computeAijbijTerm_ge (ieee16m sum16 dot16) (ge := ge) (ge' := geFin) _ (fun i j => hge _ _)]
    rfl
  rw [e1, e]
  congr 1
  have e2 : mergeSpecTerms (fun a b => geFin ((ieee16m sum16 dot16).ofInt a) ((ieee16m sum16 dot16).ofInt b))
        (argsort fun i => fin (x i)) (argsort fun i => fin (y (argsort (fun i => fin (x i)) i))) x y
      = mergeSpecTerms (fun a b : ℤ => decide (b ≤ a)) (argsort fun i => fin (x i))
        (argsort fun i => fin (y (argsort (fun i => fin (x i)) i))) x y := by
    unfold mergeSpecTerms
    simp only [ofY, geFin, Int.cast_le]
  rw [e2] at ht
  generalize mergeSpecTerms (fun a b : ℤ => decide (b ≤ a)) (argsort fun i => fin (x i))
    (argsort fun i => fin (y (argsort (fun i => fin (x i)) i))) x y = u at *
  obtain ⟨g1, g2, g3, g4, g5⟩ := ht
  cases t
  dsimp only at *
  have k2 := funext fun i => (g2 i).1.trans (ofD _ (g2 i).2)
  have k4 := funext fun i => (g4 i).1.trans (ofD _ (g4 i).2)
  rw [g1.1.trans (ofD _ g1.2), k2, g3.1.trans (ofD _ g3.2), k4, g5.1.trans (ofD _ g5.2)]

end Dcor

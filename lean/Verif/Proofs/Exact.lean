/-
With exact arithmetic the law-free algorithms are those of `Verif/Model/Avl.lean` and
`Verif/Model/Mergesort.lean`.
-/
import Verif.Proofs.Parametric
import Verif.Proofs.MergeTerms

namespace Dcor

section shape

variable {R : Type} {n : ℕ}

/-- Result of `_partial_sum_2d` in terms of the result `g` of the inner loop. -/
def Arith.partShape (A : Arith R) (σ τ : Equiv.Perm (Fin n)) (c g : Fin n → R) (i : Fin n) : R :=
  A.add (A.sub (A.sub (A.sub (A.vsum c) (c (σ.symm i)))
      (A.imul 2 (A.sub (A.cumsum (fun k => c (τ k)) (τ.symm (σ.symm i))) (c (τ (τ.symm (σ.symm i)))))))
      (A.imul 2 (A.sub (A.cumsum c (σ.symm i)) (c (σ.symm i))))) (A.imul 4 (g (σ.symm i)))

/-- Row sums computed by the AVL method. -/
def Arith.axisShape (A : Arith R) (σ : Equiv.Perm (Fin n)) (x : Fin n → R) (i : Fin n) : R :=
  A.sub (A.add (A.vsum x) (A.imul (2 * (((σ.symm i : Fin n) : ℕ) : ℤ) - n) (x i)))
    (A.imul 2 (A.sub (A.cumsum (fun k => x (σ k)) (σ.symm i)) (x (σ (σ.symm i)))))

/-- Total sum computed by the AVL method. -/
def Arith.totalShape (A : Arith R) (σ : Equiv.Perm (Fin n)) (x : Fin n → R) : R :=
  A.sub (A.imul 2 (A.vsum fun i => A.imul (((σ.symm i : Fin n) : ℕ) : ℤ) (x i)))
    (A.imul 2 (A.vsum fun i => A.sub (A.cumsum (fun k => x (σ k)) (σ.symm i)) (x (σ (σ.symm i)))))

/-- Sum of products computed by the AVL method; `D` is the inner loop. -/
def Arith.prodShape (A : Arith R) (σ τ : Equiv.Perm (Fin n)) (D : (Fin n → R) → Fin n → R) (x y : Fin n → R) : R :=
  let part := fun c => A.partShape σ τ c (D c)
  A.vsum fun i => A.sub (A.sub (A.add (A.mul (A.mul (x i) (y i)) (part (fun _ => A.ofInt 1) i))
    (part (fun k => A.mul (x (σ k)) (y (σ k))) i)) (A.mul (x i) (part (fun k => y (σ k)) i)))
    (A.mul (y i) (part (fun k => x (σ k)) i))

/-- Terms computed by the AVL method; `D` is the inner loop. -/
def Arith.avlShape (A : Arith R) (σ ρ τ : Equiv.Perm (Fin n)) (D : (Fin n → R) → Fin n → R) (x y : Fin n → R) :
    CoreTerms R n where
  meanProd := A.prodShape σ τ D x y
  aAxis := A.axisShape σ x
  aTotal := A.totalShape σ x
  bAxis := A.axisShape ρ y
  bTotal := A.totalShape ρ y

/-- Ranks as computed by the AVL method. -/
def rankOf (τ : Equiv.Perm (Fin n)) (i : Fin n) : ℤ := (((τ.symm i : Fin n) : ℕ) : ℤ) + 1

theorem rankOf_bounds (τ : Equiv.Perm (Fin n)) {L : ℕ} (hL : n ≤ 2 ^ L) (i : Fin n) :
    1 ≤ rankOf τ i ∧ rankOf τ i ≤ 2 ^ L := by
  have h1 : ((τ.symm i : Fin n) : ℕ) < n := (τ.symm i).2
  have h2 : (n : ℤ) ≤ 2 ^ L := by exact_mod_cast hL
  unfold rankOf
  constructor <;> omega

/-- If the inner loop is `D`, the AVL method returns `avlShape`. -/
theorem avlTermsWith_eq (A : Arith R) (L : ℕ) (compiled : Bool) (argsort : (Fin n → R) → Equiv.Perm (Fin n))
    (x y : Fin n → R) (hn : 3 < n) (D : (Fin n → R) → Fin n → R)
    (hD : ∀ c, (if compiled then A.dyadUpdateCompiled (rankOf (argsort fun i => y (argsort x i))) c
        (fun _ => A.ofInt 0) L (fun _ : Fin (2 ^ (L + 1)) => A.ofInt 0) (posSums L)
      else A.dyadUpdate (rankOf (argsort fun i => y (argsort x i))) c
        (fun _ => A.ofInt 0) L (fun _ : Fin (2 ^ (L + 1)) => A.ofInt 0) (posSums L)) = .ok (D c)) :
    A.avlTermsWith L compiled argsort x y
      = .ok (A.avlShape (argsort x) (argsort y) (argsort fun i => y (argsort x i)) D x y) := by
  unfold Arith.avlTermsWith
  simp only [gt_iff_lt, hn, not_true_eq_false, if_false]
  generalize hσ : argsort x = σ at *
  generalize hτ : (argsort fun i => y (σ i)) = τ at *
  generalize hρ : argsort y = ρ at *
  have sc : ∀ (π : Equiv.Perm (Fin n)) (b : Fin n → Fin n), scatter b π id = π.symm := by
    intro π b; funext i; rw [scatter_perm]; rfl
  simp only [sc]
  have hp : ∀ c : Fin n → R, A.partialSum2d compiled (fun i => (((τ.symm i : Fin n) : ℕ) : ℤ) + 1) c σ.symm
      τ.symm (fun k => A.sub (A.cumsum c k) (c k)) (fun k => A.sub (A.cumsum (fun k => c (τ k)) k) (c (τ k)))
      (A.vsum c) L (fun _ : Fin (2 ^ (L + 1)) => A.ofInt 0) (posSums L) (fun _ => A.ofInt 0)
      = .ok (A.partShape σ τ c (D c)) := by
    intro c
    have h := hD c
    unfold Arith.partialSum2d
    cases compiled
    · have h' : A.dyadUpdate (rankOf τ) c (fun _ => A.ofInt 0) L (fun _ : Fin (2 ^ (L + 1)) => A.ofInt 0)
          (posSums L) = .ok (D c) := h
      have : (fun i => (((τ.symm i : Fin n) : ℕ) : ℤ) + 1) = rankOf τ := rfl
      rw [this]
      simp only [Bool.false_eq_true, if_false, h', Except.ok_bind', Except.pure_eq]
      rfl
    · have h' : A.dyadUpdateCompiled (rankOf τ) c (fun _ => A.ofInt 0) L (fun _ : Fin (2 ^ (L + 1)) => A.ofInt 0)
          (posSums L) = .ok (D c) := h
      have : (fun i => (((τ.symm i : Fin n) : ℕ) : ℤ) + 1) = rankOf τ := rfl
      rw [this]
      simp only [if_true, h', Except.ok_bind', Except.pure_eq]
      rfl
  simp only [hp, Except.ok_bind', Except.pure_eq]
  rfl

/-- The inner loop never fails. -/
theorem avlTermsWith_safe_loop (A : Arith R) (L : ℕ) (hL : n ≤ 2 ^ L) (compiled : Bool)
    (τ : Equiv.Perm (Fin n)) (c : Fin n → R) :
    ∃ g, (if compiled then A.dyadUpdateCompiled (rankOf τ) c
        (fun _ => A.ofInt 0) L (fun _ : Fin (2 ^ (L + 1)) => A.ofInt 0) (posSums L)
      else A.dyadUpdate (rankOf τ) c
        (fun _ => A.ofInt 0) L (fun _ : Fin (2 ^ (L + 1)) => A.ofInt 0) (posSums L)) = .ok g := by
  have hrel : A.AddRel (monoidArith ℕ) (fun _ _ => True) :=
    ⟨trivial, fun _ _ _ _ _ _ => trivial, fun _ _ _ => trivial⟩
  obtain ⟨g, e, _⟩ := dyad_rel hrel compiled (rankOf τ) (rankOf_bounds _ hL) c (fun _ => 0) (fun _ => trivial)
    (fun _ : Fin (2 ^ (L + 1)) => A.ofInt 0)
  exact ⟨g, e⟩

/-- The AVL method never fails, whatever the arithmetic does, and whatever order the elements are sorted in. -/
theorem avlTermsWith_safe (A : Arith R) (L : ℕ) (hL : n ≤ 2 ^ L) (compiled : Bool)
    (argsort : (Fin n → R) → Equiv.Perm (Fin n)) (x y : Fin n → R) (hn : 3 < n) :
    ∃ D, A.avlTermsWith L compiled argsort x y
      = .ok (A.avlShape (argsort x) (argsort y) (argsort fun i => y (argsort x i)) D x y) := by
  choose D hD using avlTermsWith_safe_loop A L hL compiled (argsort fun i => y (argsort x i))
  exact ⟨D, avlTermsWith_eq A L compiled argsort x y hn D hD⟩

end shape

/-- The operations of a commutative ring (there is no division, square root or comparison). -/
def ringArith (K : Type) [CommRing K] : Arith K where
  ofInt k := (k : K)
  add := (· + ·)
  sub := (· - ·)
  mul := (· * ·)
  div a _ := a
  sum := List.sum
  dot l := (l.map fun p => p.1 * p.2).sum
  sqrt a := a
  abs a := a
  lt _ _ := true
  eq _ _ := true

section ring

variable {K : Type} [CommRing K] {n : ℕ}

theorem ringArith_vsum {m : ℕ} (v : Fin m → K) : (ringArith K).vsum v = ∑ i, v i := List.sum_ofFn

theorem ringArith_vdot {m : ℕ} (v w : Fin m → K) : (ringArith K).vdot v w = ∑ i, v i * w i := by
  show ((List.ofFn fun i => (v i, w i)).map fun p => p.1 * p.2).sum = _
  rw [List.map_ofFn, List.sum_ofFn]
  rfl

theorem ringArith_cumsum {m : ℕ} (v : Fin m → K) : (ringArith K).cumsum v = cumsum v := by
  have : ∀ (k : ℕ) (hk : k < m), (ringArith K).cumsumAt v k hk = ∑ j, if j ≤ (⟨k, hk⟩ : Fin m) then v j else 0 := by
    intro k
    induction k with
    | zero =>
      intro hk
      show v ⟨0, hk⟩ = _
      rw [Finset.sum_eq_single_of_mem (⟨0, hk⟩ : Fin m) (Finset.mem_univ _)]
      · simp
      · intro b _ hb
        rw [if_neg]
        intro hle
        exact hb (Fin.ext (Nat.le_zero.1 hle))
    | succ k ih =>
      intro hk
      show (ringArith K).cumsumAt v k _ + v ⟨k + 1, hk⟩ = _
      rw [ih (by omega)]
      have h : v ⟨k + 1, hk⟩ = ∑ j, if j = (⟨k + 1, hk⟩ : Fin m) then v j else 0 := by simp
      rw [h, ← Finset.sum_add_distrib]
      apply Finset.sum_congr rfl
      intro j _
      simp only [Fin.le_def, Fin.ext_iff]
      split_ifs <;> first | omega | simp
  funext k
  rw [cumsum_eq_ite]
  exact this k k.2

theorem ringArith_imul (k : ℤ) (a : K) : (ringArith K).imul k a = (k : K) * a := rfl

theorem ringArith_addRel : (ringArith K).AddRel (monoidArith K) (fun a b => a = b) := by
  refine ⟨Int.cast_zero, ?_, ?_⟩
  · rintro a b _ _ rfl rfl
    rfl
  · intro l l' h
    rw [List.forall₂_eq_eq_eq] at h
    subst h
    rfl

/-- The AVL algorithm in a ring. -/
theorem ringArith_avlTerms (compiled : Bool) (argsort : (Fin n → K) → Equiv.Perm (Fin n)) (x y : Fin n → K) :
    (ringArith K).avlTerms compiled argsort x y = avlTermsImpl compiled argsort x y := by
  by_cases hn : 3 < n
  swap
  · unfold Arith.avlTerms Arith.avlTermsWith avlTermsImpl
    simp only [gt_iff_lt, hn, not_false_eq_true, if_true]
    rfl
  have hL : n ≤ 2 ^ Nat.clog 2 n := Nat.le_pow_clog (by norm_num) n
  rw [avlTermsImpl_eq_permTerms compiled argsort x y hn, Arith.avlTerms]
  have hD : ∀ c : Fin n → K, _ := fun c => dyad_rel ringArith_addRel compiled
    (rankOf (argsort fun i => y (argsort x i))) (rankOf_bounds _ hL) c c (fun _ => rfl)
    (fun _ : Fin (2 ^ (Nat.clog 2 n + 1)) => (ringArith K).ofInt 0)
  rw [avlTermsWith_eq (ringArith K) _ compiled argsort x y hn
    (fun c => gammaSpec (rankOf (argsort fun i => y (argsort x i))) c) (fun c => by
      obtain ⟨g, e, hg⟩ := hD c
      rw [e]
      congr 1
      exact funext hg)]
  congr 1
  generalize argsort x = σ
  generalize (argsort fun i => y (σ i)) = τ
  generalize argsort y = ρ
  have hsub : ∀ a b : K, (ringArith K).sub a b = a - b := fun _ _ => rfl
  have hadd : ∀ a b : K, (ringArith K).add a b = a + b := fun _ _ => rfl
  have hmul : ∀ a b : K, (ringArith K).mul a b = a * b := fun _ _ => rfl
  have hof : (ringArith K).ofInt 1 = 1 := Int.cast_one
  have hpart : ∀ (c : Fin n → K) (i : Fin n), (ringArith K).partShape σ τ c (gammaSpec (rankOf τ) c) i
      = ∑ q, if q = σ.symm i then 0 else sgnLt q (σ.symm i) * sgnLt (τ.symm q) (τ.symm (σ.symm i)) * c q := by
    intro c i
    rw [← partial_closed τ c (σ.symm i)]
    simp only [Arith.partShape, hsub, hadd, ringArith_vsum, ringArith_imul, ringArith_cumsum]
    push_cast
    rfl
  unfold Arith.avlShape permTerms
  congr 1
  · unfold Arith.prodShape
    simp only [hpart, ringArith_vsum, hsub, hadd, hmul, hof]
    rw [← Equiv.sum_comp σ]
    apply Finset.sum_congr rfl
    intro r _
    simp only [Equiv.symm_apply_apply]
    rw [Finset.mul_sum, Finset.mul_sum, Finset.mul_sum, ← Finset.sum_add_distrib,
      ← Finset.sum_sub_distrib, ← Finset.sum_sub_distrib]
    apply Finset.sum_congr rfl
    intro q _
    by_cases hq : q = r
    · subst hq; simp
    · simp only [hq, if_false]; ring
  · funext i
    rw [← axis_eq σ x i]
    simp only [Arith.axisShape, hsub, hadd, ringArith_vsum, ringArith_imul, ringArith_cumsum]
    push_cast
    rfl
  · rw [← total_eq σ x]
    simp only [Arith.totalShape, hsub, ringArith_vsum, ringArith_imul, ringArith_cumsum]
    push_cast
    rfl
  · funext i
    rw [← axis_eq ρ y i]
    simp only [Arith.axisShape, hsub, hadd, ringArith_vsum, ringArith_imul, ringArith_cumsum]
    push_cast
    rfl
  · rw [← total_eq ρ y]
    simp only [Arith.totalShape, hsub, ringArith_vsum, ringArith_imul, ringArith_cumsum]
    push_cast
    rfl

/-- The mergesort algorithm in a ring. -/
theorem ringArith_mergesortTerms (ge : K → K → Bool) (argsort : (Fin n → K) → Equiv.Perm (Fin n))
    (x y : Fin n → K) :
    (ringArith K).mergesortTerms ge argsort x y = (mergesortTermsImpl ge argsort x y).map Prod.fst := by
  have hof : ∀ k : ℤ, (ringArith K).ofInt k = (k : K) := fun _ => rfl
  have hsub : ∀ a b : K, (ringArith K).sub a b = a - b := fun _ _ => rfl
  have hadd : ∀ a b : K, (ringArith K).add a b = a + b := fun _ _ => rfl
  have hmul : ∀ a b : K, (ringArith K).mul a b = a * b := fun _ _ => rfl
  have hws : ∀ (y : Fin n → K) (w : Fin n → Fin 4 → K),
      (ringArith K).computeWeightSums ge y w = computeWeightSums ge y w := by
    intro y w
    exact isGroup_computeWeightSums ⟨Int.cast_zero, rfl, rfl⟩ y w
  have hrow : ∀ x : Fin n → K, (ringArith K).computeRowSums x = computeRowSums x := by
    intro x
    unfold Arith.computeRowSums computeRowSums
    simp only [hadd, hsub, ringArith_imul, ringArith_cumsum]
    push_cast
    rfl
  have hterm : ∀ x y : Fin n → K, (ringArith K).computeAijbijTerm ge x y
      = (computeAijbijTerm ge x y).map Prod.fst := by
    intro x y
    unfold Arith.computeAijbijTerm computeAijbijTerm
    simp only [hof, hsub, hadd, hmul, ringArith_imul, ringArith_vsum, ringArith_vdot, hws]
    push_cast
    cases computeWeightSums ge y (fun i => ![1, y i, x i, x i * y i]) with
    | error e => rfl
    | ok r => rfl
  unfold Arith.mergesortTerms mergesortTermsImpl
  dsimp only
  rw [hterm]
  cases computeAijbijTerm ge (fun i => x (argsort x i)) (fun i => y (argsort x i)) with
  | error e => rfl
  | ok r =>
    obtain ⟨v, u⟩ := r
    have h0 : ((0 : ℤ) : K) = 0 := Int.cast_zero
    simp only [hrow, ringArith_vsum, hof, h0, Except.ok_bind']
    cases computeRowSums (fun i => x (argsort x i)) with
    | error e => rfl
    | ok a =>
      cases computeRowSums (fun i => y (argsort x ((argsort fun i => y (argsort x i)) i))) with
      | error e => rfl
      | ok b => rfl

end ring

end Dcor

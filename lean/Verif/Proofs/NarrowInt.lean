/-
The fast methods on short integers: closed forms, and agreement with exact arithmetic when the
intermediate results fit.
-/
import Verif.Model.NarrowInt
import Verif.Proofs.IntWrap

namespace Dcor

open Finset

variable {n w : ℕ}

/-! ### The inner loop -/

theorem length_of_mapM_ok {α β : Type} (f : α → Except PyErr β) :
    ∀ (l : List α) (r : List β), l.mapM f = .ok r → r.length = l.length
  | [], r, h => by
    rw [List.mapM_nil] at h
    cases h
    rfl
  | a :: l, r, h => by
    rw [List.mapM_cons] at h
    cases ha : f a with
    | error e => rw [ha] at h; cases h
    | ok b =>
      rw [ha, Except.ok_bind'] at h
      cases hl : l.mapM f with
      | error e => rw [hl] at h; cases h
      | ok bs =>
        rw [hl, Except.ok_bind'] at h
        cases h
        simp [length_of_mapM_ok f l bs hl]

/-- The dtype adds as a monoid, and sums that were computed as `int64` are the same sums. -/
structure NarrowType.IsMonoid {T : Type} (A : NarrowType T) [AddCommMonoid T] (L : ℕ) : Prop where
  zero : A.zero = 0
  add : ∀ a b, A.add a b = a + b
  store : ∀ l : List T, l.length ≤ L → A.store (l.map A.load).sum = l.sum

theorem dyadUpdateNarrow_eq {T : Type} (A : NarrowType T) [AddCommMonoid T] {L : ℕ}
    (hA : A.IsMonoid L) (y : Fin n → ℤ) (c g : Fin n → T) (hy : ∀ i, 1 ≤ y i ∧ y i ≤ 2 ^ L) :
    dyadUpdateNarrow A (2 ^ (L + 1)) y c g L (posSums L) = .ok (gammaSpec y c) := by
  have h1 : dyadStepNarrow (sLen := 2 ^ (L + 1)) A y c (posSums L) = dyadStep y c (posSums L) := by
    funext st i
    unfold dyadStepNarrow dyadStep
    have hadd : (⟨A.add⟩ : Add T) = (inferInstance : Add T) := by
      congr 1
      funext a b
      exact hA.add a b
    rw [hadd]
    cases hv : ((List.finRange L).filter (fun l : Fin L => validPosition (y i) l)).mapM
        (fun l => rd st.2 (positions3b (posSums L) (y i) l)) with
    | error e => rfl
    | ok vals =>
      have hl := length_of_mapM_ok _ _ _ hv
      rw [Except.ok_bind', Except.ok_bind', hA.store]
      rw [hl]
      exact (List.length_filter_le _ _).trans (by simp)
  unfold dyadUpdateNarrow
  rw [h1, hA.zero, ← dyadUpdate_eq y c g hy fun _ => 0]
  rfl

/-! ### Signed integers -/

/-- Reduction modulo `2 ^ w`. -/
abbrev wrapW (w : ℕ) : ℤ →+* BitVec w := Int.castRingHom (BitVec w)

/-- The number is a value of the dtype of `w` bits. -/
def FitsInt (w : ℕ) (z : ℤ) : Prop := -2 ^ (w - 1) ≤ z ∧ z < 2 ^ (w - 1)

theorem wrapW_toInt (v : BitVec w) : wrapW w v.toInt = v := by
  show ((v.toInt : ℤ) : BitVec w) = v
  apply BitVec.eq_of_toInt_eq
  rw [BitVec.toInt_intCast]
  have h₁ := BitVec.two_mul_toInt_lt (x := v)
  have h₂ := BitVec.le_two_mul_toInt (x := v)
  have h₃ : (0 : ℤ) < 2 ^ w := by positivity
  apply Int.bmod_eq_of_le <;> push_cast <;> omega

theorem toInt_wrapW (hw : 0 < w) {z : ℤ} (h : FitsInt w z) : (wrapW w z).toInt = z := by
  show ((z : ℤ) : BitVec w).toInt = z
  rw [BitVec.toInt_intCast]
  obtain ⟨k, rfl⟩ : ∃ k, w = k + 1 := ⟨w - 1, by omega⟩
  obtain ⟨h1, h2⟩ := h
  simp only [Nat.add_sub_cancel] at h1 h2
  apply Int.bmod_eq_of_le
  · push_cast [pow_succ]; omega
  · push_cast [pow_succ]; omega

theorem signExtend_wrapW (hw : 0 < w) (hw' : w ≤ 64) {z : ℤ} (h : FitsInt w z) :
    (wrapW w z).signExtend 64 = wrap z := by
  rw [← wrap_toInt ((wrapW w z).signExtend 64), BitVec.toInt_signExtend_of_le hw', toInt_wrapW hw h]

theorem signExtend_eq (hw' : w ≤ 64) (v : BitVec w) : v.signExtend 64 = wrap v.toInt := by
  rw [← wrap_toInt (v.signExtend 64), BitVec.toInt_signExtend_of_le hw']

theorem truncate_wrap (hw : w ≤ 64) (z : ℤ) : (wrap z).truncate w = wrapW w z := by
  show BitVec.setWidth w (BitVec.ofInt 64 z) = BitVec.ofInt w z
  apply BitVec.eq_of_toNat_eq
  rw [BitVec.toNat_setWidth, BitVec.toNat_ofInt, BitVec.toNat_ofInt]
  have hd : ((2 ^ w : ℕ) : ℤ) ∣ ((2 ^ 64 : ℕ) : ℤ) := by exact_mod_cast pow_dvd_pow 2 hw
  have h64 : ((2 ^ 64 : ℕ) : ℤ) ≠ 0 := by positivity
  have hw0 : ((2 ^ w : ℕ) : ℤ) ≠ 0 := by positivity
  zify
  rw [Int.toNat_of_nonneg (Int.emod_nonneg _ (by exact_mod_cast h64)),
    Int.toNat_of_nonneg (Int.emod_nonneg _ (by exact_mod_cast hw0))]
  exact Int.emod_emod_of_dvd _ (by exact_mod_cast hd)

/-- Sums computed as `int64` and then stored are the sums modulo `2 ^ w`. -/
theorem store_sum {ι : Type} (hw : w ≤ 64) (s : Finset ι) (c : ι → BitVec w) :
    (∑ k ∈ s, (c k).signExtend 64).truncate w = ∑ k ∈ s, c k := by
  have h1 : ∑ k ∈ s, (c k).signExtend 64 = wrap (∑ k ∈ s, (c k).toInt) := by
    rw [map_sum]
    exact sum_congr rfl fun k _ => signExtend_eq hw _
  rw [h1, truncate_wrap hw, map_sum]
  exact sum_congr rfl fun k _ => wrapW_toInt _

theorem store_list_sum (hw : w ≤ 64) (l : List (BitVec w)) :
    ((l.map (BitVec.signExtend 64)).sum).truncate w = l.sum := by
  have h1 : (l.map (BitVec.signExtend 64)).sum = wrap (l.map BitVec.toInt).sum := by
    rw [map_list_sum, List.map_map]
    congr 1
  rw [h1, truncate_wrap hw, map_list_sum, List.map_map]
  have h2 : (⇑(wrapW w) ∘ BitVec.toInt) = id := funext fun v => wrapW_toInt v
  rw [h2, List.map_id]

theorem signed_isMonoid (hw : w ≤ 64) (L : ℕ) : (NarrowType.signed w).IsMonoid L :=
  ⟨rfl, fun _ _ => rfl, fun l _ => store_list_sum hw l⟩

theorem narrow_rank_bounds (τ : Equiv.Perm (Fin n)) (i : Fin n) :
    1 ≤ (((τ.symm i : Fin n) : ℕ) : ℤ) + 1 ∧
      (((τ.symm i : Fin n) : ℕ) : ℤ) + 1 ≤ 2 ^ Nat.clog 2 n := by
  have h1 : ((τ.symm i : Fin n) : ℕ) < n := (τ.symm i).2
  have h2 : (n : ℤ) ≤ 2 ^ Nat.clog 2 n := by exact_mod_cast Nat.le_pow_clog (by norm_num) n
  constructor <;> omega

/-- Closed form of `gamma` (dcor/_fast_dcov_avl.py:174) for any dtype. -/
def narrowG {T : Type} (A : NarrowType T) [AddCommMonoid T] (τ : Equiv.Perm (Fin n)) (c : Fin n → T)
    (r : Fin n) : BitVec 64 :=
  (∑ k, A.load (c k)) - A.load (c r)
    - A.scale 2 (A.store (∑ q, if τ.symm q < τ.symm r then A.load (c q) else 0))
    - A.scale 2 (A.store (∑ q, if q < r then A.load (c q) else 0))
    + A.scale 4 (∑ q, if q < r ∧ τ.symm q < τ.symm r then c q else 0)

theorem gammaSpec_ranks {T : Type} [AddCommMonoid T] (τ : Equiv.Perm (Fin n)) (c : Fin n → T)
    (r : Fin n) :
    gammaSpec (fun i => (((τ.symm i : Fin n) : ℕ) : ℤ) + 1) c r
      = ∑ q, if q < r ∧ τ.symm q < τ.symm r then c q else 0 := by
  unfold gammaSpec
  apply Finset.sum_congr rfl
  intro q _
  have : ((((τ.symm q : Fin n) : ℕ) : ℤ) + 1 < (((τ.symm r : Fin n) : ℕ) : ℤ) + 1)
      ↔ τ.symm q < τ.symm r := by rw [Fin.lt_def]; omega
  simp only [this]

theorem partialSum2dNarrow_eq {T : Type} (A : NarrowType T) [AddCommMonoid T]
    (hA : A.IsMonoid (Nat.clog 2 n)) (τ : Equiv.Perm (Fin n)) (c : Fin n → T)
    (ix : Fin n → Fin n) :
    partialSum2dNarrow A τ (fun i => (((τ.symm i : Fin n) : ℕ) : ℤ) + 1) c ix τ.symm (Nat.clog 2 n)
      = .ok fun i => narrowG A τ c (ix i) := by
  unfold partialSum2dNarrow
  simp only
  rw [dyadUpdateNarrow_eq A hA _ c _ (narrow_rank_bounds τ), Except.ok_bind', Except.pure_eq]
  congr 1
  funext i
  unfold narrowG
  have h2 : cumsum (fun j => A.load (c (τ j))) (τ.symm (ix i)) - A.load (c (τ (τ.symm (ix i))))
      = ∑ q, if τ.symm q < τ.symm (ix i) then A.load (c q) else 0 := by
    rw [cumsum_sub_self (fun j => A.load (c (τ j))) (τ.symm (ix i)), ← Equiv.sum_comp τ.symm]
    simp
  rw [h2, cumsum_sub_self (fun j => A.load (c j)), gammaSpec_ranks]

/-- Closed form of the AVL terms for any dtype. -/
theorem avlTermsNarrow_eq {T : Type} (A : NarrowType T) [AddCommMonoid T]
    (hA : A.IsMonoid (Nat.clog 2 n)) (argsort : (Fin n → T) → Equiv.Perm (Fin n)) (x y : Fin n → T)
    (hn : 3 < n) (σ ρ τ : Equiv.Perm (Fin n)) (hσ : argsort x = σ) (hρ : argsort y = ρ)
    (hτ : (argsort fun i => y (σ i)) = τ) :
    avlTermsNarrow A argsort x y = .ok
      { permTerms σ ρ τ (fun i => A.load (x i)) (fun i => A.load (y i)) with
        meanProd := ∑ r, (A.load (A.mul (x (σ r)) (y (σ r))) * narrowG A τ (fun _ => A.one) r
          + narrowG A τ (fun i => A.mul (x (σ i)) (y (σ i))) r
          - A.load (x (σ r)) * narrowG A τ (fun i => y (σ i)) r
          - A.load (y (σ r)) * narrowG A τ (fun i => x (σ i)) r) } := by
  unfold avlTermsNarrow
  simp only [gt_iff_lt, hn, not_true_eq_false, if_false, hσ, hρ, hτ]
  have sc : ∀ (π : Equiv.Perm (Fin n)) (b : Fin n → Fin n), scatter b π id = π.symm := by
    intro π b; funext i; rw [scatter_perm]; rfl
  simp only [sc, partialSum2dNarrow_eq A hA, Except.ok_bind', Except.pure_eq]
  congr 1
  unfold permTerms
  congr 1
  · rw [← Equiv.sum_comp σ]
    simp only [Equiv.symm_apply_apply]
  · funext i; exact axis_eq σ (fun i => A.load (x i)) i
  · exact total_eq σ fun i => A.load (x i)
  · funext i; exact axis_eq ρ (fun i => A.load (y i)) i
  · exact total_eq ρ fun i => A.load (y i)

/-- The signed sum of the other weights (step 7). -/
def signedSum {R : Type} [CommRing R] (τ : Equiv.Perm (Fin n)) (c : Fin n → R) (r : Fin n) : R :=
  ∑ q, if q = r then 0 else sgnLt q r * sgnLt (τ.symm q) (τ.symm r) * c q

theorem signedSum_closed {R : Type} [CommRing R] (τ : Equiv.Perm (Fin n)) (c : Fin n → R)
    (r : Fin n) :
    signedSum τ c r = (∑ k, c k) - c r - 2 * (∑ q, if τ.symm q < τ.symm r then c q else 0)
      - 2 * (∑ q, if q < r then c q else 0)
      + 4 * ∑ q, if q < r ∧ τ.symm q < τ.symm r then c q else 0 := by
  have h2 : cumsum (fun j => c (τ j)) (τ.symm r) - c (τ (τ.symm r))
      = ∑ q, if τ.symm q < τ.symm r then c q else 0 := by
    rw [cumsum_sub_self (fun j => c (τ j)) (τ.symm r), ← Equiv.sum_comp τ.symm]
    simp
  rw [signedSum, ← partial_closed, gammaSpec_rank, h2, cumsum_sub_self]

/-- Step 8 of the algorithm. -/
theorem step8 {R : Type} [CommRing R] (σ ρ τ : Equiv.Perm (Fin n)) (x y : Fin n → R) :
    ∑ r, (x (σ r) * y (σ r) * signedSum τ (fun _ => 1) r
      + signedSum τ (fun i => x (σ i) * y (σ i)) r - x (σ r) * signedSum τ (fun i => y (σ i)) r
      - y (σ r) * signedSum τ (fun i => x (σ i)) r)
    = (permTerms σ ρ τ x y).meanProd := by
  show _ = ∑ r, ∑ q, sgnLt q r * sgnLt (τ.symm q) (τ.symm r)
      * ((x (σ r) - x (σ q)) * (y (σ r) - y (σ q)))
  refine sum_congr rfl fun r _ => ?_
  unfold signedSum
  rw [Finset.mul_sum, Finset.mul_sum, Finset.mul_sum, ← Finset.sum_add_distrib,
    ← Finset.sum_sub_distrib, ← Finset.sum_sub_distrib]
  refine sum_congr rfl fun q _ => ?_
  by_cases hq : q = r
  · subst hq; simp
  · simp only [hq, if_false]; ring

/-- The sums of step 7 are right if the products fit. -/
theorem narrowG_exact (hw : 0 < w) (hw' : w ≤ 64) (τ : Equiv.Perm (Fin n)) (c : Fin n → ℤ)
    (r : Fin n) (hc : ∀ i, FitsInt w (c i))
    (h1 : FitsInt w (2 * ∑ q, if τ.symm q < τ.symm r then c q else 0))
    (h2 : FitsInt w (2 * ∑ q, if q < r then c q else 0))
    (h3 : FitsInt w (4 * ∑ q, if q < r ∧ τ.symm q < τ.symm r then c q else 0)) :
    narrowG (.signed w) τ (fun i => wrapW w (c i)) r = wrap (signedSum τ c r) := by
  have hl : ∀ i, (NarrowType.signed w).load (wrapW w (c i)) = wrap (c i) := fun i =>
    signExtend_wrapW hw hw' (hc i)
  have hst : ∀ (p : Fin n → Prop) [DecidablePred p],
      (NarrowType.signed w).store (∑ q, if p q then wrap (c q) else 0)
        = wrapW w (∑ q, if p q then c q else 0) := by
    intro p _
    rw [← truncate_wrap hw', map_sum]
    show BitVec.truncate w _ = _
    congr 1
    refine sum_congr rfl fun q _ => ?_
    split_ifs
    · rfl
    · exact (map_zero _).symm
  have hg : (∑ q, if q < r ∧ τ.symm q < τ.symm r then wrapW w (c q) else 0)
      = wrapW w (∑ q, if q < r ∧ τ.symm q < τ.symm r then c q else 0) := by
    rw [map_sum]
    refine sum_congr rfl fun q _ => ?_
    split_ifs
    · rfl
    · exact (map_zero _).symm
  have hsc : ∀ (k : ℕ) (z : ℤ), FitsInt w (k * z) →
      (NarrowType.signed w).scale k (wrapW w z) = wrap (k * z) := by
    intro k z hz
    show BitVec.signExtend 64 ((k : BitVec w) * wrapW w z) = _
    rw [← signExtend_wrapW hw hw' hz, map_mul, map_natCast]
  unfold narrowG
  simp only [hl]
  rw [hst fun q => τ.symm q < τ.symm r, hst fun q => q < r, hg,
    hsc 2 _ (by exact_mod_cast h1), hsc 2 _ (by exact_mod_cast h2), hsc 4 _ (by exact_mod_cast h3),
    signedSum_closed]
  simp only [map_add, map_sub, map_mul, map_sum]
  rfl

theorem abs_sum_others {B : ℤ} (c : Fin n → ℤ) (hc : ∀ i, |c i| ≤ B) (r : Fin n) (p : Fin n → Prop)
    [DecidablePred p] (hp : ¬ p r) : |∑ q, if p q then c q else 0| ≤ ((n : ℤ) - 1) * B := by
  have hB : 0 ≤ B := (abs_nonneg _).trans (hc r)
  calc |∑ q, if p q then c q else 0| ≤ ∑ q, |if p q then c q else 0| := abs_sum_le_sum_abs _ _
    _ ≤ ∑ q, if q = r then 0 else B := by
      refine sum_le_sum fun q _ => ?_
      by_cases hq : q = r
      · subst hq; simp [hp]
      · rw [if_neg hq]
        split_ifs
        · exact hc q
        · simpa using hB
    _ = ((n : ℤ) - 1) * B := by
      have h : ∀ q : Fin n, (if q = r then 0 else B) = B - if q = r then B else 0 := fun q => by
        split_ifs <;> ring
      simp only [h, sum_sub_distrib, sum_ite_eq', mem_univ, if_true, sum_const, card_univ,
        Fintype.card_fin, nsmul_eq_mul]
      ring

theorem FitsInt.of_abs {z b : ℤ} (h : |z| ≤ b) (hb : b < 2 ^ (w - 1)) : FitsInt w z := by
  have := abs_le.1 h
  exact ⟨by linarith, by linarith⟩

/-- AVL on short integers computes the exact terms modulo `2 ^ 64` if `4 (n - 1) M N` fits. -/
theorem avlTerms_signed (hw : 0 < w) (hw' : w ≤ 64)
    (argsort : (Fin n → BitVec w) → Equiv.Perm (Fin n))
    (hs : ∀ v : Fin n → BitVec w, Monotone fun i => (v (argsort v i)).toInt)
    (x y : Fin n → BitVec w) (hn : 3 < n) (M N : ℤ) (hM : 1 ≤ M) (hN : 1 ≤ N)
    (hx : ∀ i, |(x i).toInt| ≤ M) (hy : ∀ i, |(y i).toInt| ≤ N)
    (hb : 4 * ((n : ℤ) - 1) * (M * N) < 2 ^ (w - 1)) :
    avlTermsNarrow (.signed w) argsort x y
      = .ok ((exactTerms (Equiv.refl _) (fun i => (x i).toInt) (fun i => (y i).toInt)).map wrap) := by
  obtain ⟨X, hX⟩ : ∃ X : Fin n → ℤ, X = fun i => (x i).toInt := ⟨_, rfl⟩
  obtain ⟨Y, hY⟩ : ∃ Y : Fin n → ℤ, Y = fun i => (y i).toInt := ⟨_, rfl⟩
  have hxX : ∀ i, x i = wrapW w (X i) := fun i => by rw [hX]; exact (wrapW_toInt _).symm
  have hyY : ∀ i, y i = wrapW w (Y i) := fun i => by rw [hY]; exact (wrapW_toInt _).symm
  have hXM : ∀ i, |X i| ≤ M := fun i => by rw [hX]; exact hx i
  have hYN : ∀ i, |Y i| ≤ N := fun i => by rw [hY]; exact hy i
  have hn' : (3 : ℤ) < n := by exact_mod_cast hn
  have hMN : M ≤ M * N := by nlinarith
  have hNM : N ≤ M * N := by nlinarith
  have h1 : 1 ≤ M * N := by nlinarith
  have hXY : ∀ i j, |X i * Y j| ≤ M * N := fun i j => by
    rw [abs_mul]; exact mul_le_mul (hXM i) (hYN j) (abs_nonneg _) (by linarith)
  have hsmall : M * N < 2 ^ (w - 1) := by nlinarith
  have hg : ∀ (τ : Equiv.Perm (Fin n)) (c : Fin n → ℤ) (r : Fin n), (∀ i, |c i| ≤ M * N) →
      narrowG (.signed w) τ (fun i => wrapW w (c i)) r = wrap (signedSum τ c r) := by
    intro τ c r hc
    have hk : ∀ (k : ℤ) (p : Fin n → Prop) [DecidablePred p], ¬ p r → 0 ≤ k → k ≤ 4 →
        FitsInt w (k * ∑ q, if p q then c q else 0) := by
      intro k p _ hp hk0 hk4
      refine FitsInt.of_abs (b := 4 * ((n : ℤ) - 1) * (M * N)) ?_ hb
      rw [abs_mul, abs_of_nonneg hk0, mul_assoc]
      exact mul_le_mul hk4 (abs_sum_others c hc r p hp) (abs_nonneg _) (by norm_num)
    exact narrowG_exact hw hw' τ c r (fun i => FitsInt.of_abs (hc i) hsmall)
      (hk 2 (fun q => τ.symm q < τ.symm r) (lt_irrefl _) (by norm_num) (by norm_num))
      (hk 2 (fun q => q < r) (lt_irrefl _) (by norm_num) (by norm_num))
      (hk 4 (fun q => q < r ∧ τ.symm q < τ.symm r) (fun h => lt_irrefl _ h.1) (by norm_num)
        (by norm_num))
  have hlX : ∀ i, (NarrowType.signed w).load (x i) = wrap (X i) := fun i => by
    rw [hX]; exact signExtend_eq hw' _
  have hlY : ∀ i, (NarrowType.signed w).load (y i) = wrap (Y i) := fun i => by
    rw [hY]; exact signExtend_eq hw' _
  have hmul : ∀ i, (NarrowType.signed w).mul (x i) (y i) = wrapW w (X i * Y i) := fun i => by
    rw [map_mul, ← hxX, ← hyY]; rfl
  have hlXY : ∀ i, (NarrowType.signed w).load ((NarrowType.signed w).mul (x i) (y i))
      = wrap (X i * Y i) := fun i => by
    rw [hmul]; exact signExtend_wrapW hw hw' (FitsInt.of_abs (hXY i i) hsmall)
  have hσm := hs x
  have hρm := hs y
  have hτm := hs fun i => y (argsort x i)
  rw [avlTermsNarrow_eq (.signed w) (signed_isMonoid hw' _) argsort x y hn _ _ _ rfl rfl rfl]
  generalize argsort (fun i => y (argsort x i)) = τ at *
  generalize argsort x = σ at *
  generalize argsort y = ρ at *
  have e1 : narrowG (.signed w) τ (fun _ => (NarrowType.signed w).one)
      = fun r => wrap (signedSum τ (fun _ => 1) r) := by
    funext r
    rw [← hg τ (fun _ => 1) r fun i => by simpa using h1]
    simp only [map_one]
    rfl
  have e2 : narrowG (.signed w) τ (fun i => (NarrowType.signed w).mul (x (σ i)) (y (σ i)))
      = fun r => wrap (signedSum τ (fun i => X (σ i) * Y (σ i)) r) := by
    funext r
    rw [← hg τ (fun i => X (σ i) * Y (σ i)) r fun i => hXY _ _]
    simp only [hmul]
  have e3 : narrowG (.signed w) τ (fun i => y (σ i))
      = fun r => wrap (signedSum τ (fun i => Y (σ i)) r) := by
    funext r
    rw [← hg τ (fun i => Y (σ i)) r fun i => (hYN _).trans hNM]
    simp only [← hyY]
  have e4 : narrowG (.signed w) τ (fun i => x (σ i))
      = fun r => wrap (signedSum τ (fun i => X (σ i)) r) := by
    funext r
    rw [← hg τ (fun i => X (σ i)) r fun i => (hXM _).trans hMN]
    simp only [← hxX]
  have hperm : permTerms σ ρ τ X Y = exactTerms (Equiv.refl _) X Y := by
    rw [permTerms_eq σ ρ τ X Y (by rw [hX]; exact hσm) (by rw [hY]; exact hρm)
      (by rw [hY]; exact hτm)]
    rfl
  rw [← hX, ← hY, ← hperm, ← permTerms_map]
  simp only [e1, e2, e3, e4, hlX, hlY, hlXY]
  congr 1
  refine congrArg (fun m => { permTerms σ ρ τ (fun i => wrap (X i)) (fun i => wrap (Y i)) with
    meanProd := m }) ?_
  show _ = (permTerms σ ρ τ (fun i => wrap (X i)) (fun i => wrap (Y i))).meanProd
  rw [permTerms_map]
  show _ = wrap (permTerms σ ρ τ X Y).meanProd
  rw [← step8 σ ρ τ X Y]
  simp only [map_sum, map_sub, map_add, map_mul]

/-! ### Mergesort -/

/-- The value of `_compute_aijbij_term` written with the sums over the pairs in order. -/
theorem aijbij_formula (x y : Fin n → ℤ) :
    let D := fun j => univ.filter fun i : Fin n => i < j ∧ decide (y j ≤ y i) = false
    4 * ((∑ j, x j * y j * ∑ _i ∈ D j, (1 : ℤ)) - (∑ j, x j * ∑ i ∈ D j, y i)
        - (∑ j, y j * ∑ i ∈ D j, x i) + ∑ j, ∑ i ∈ D j, x i * y i)
      - 2 * ((∑ i, (n : ℤ) * x i * y i) - (∑ i, ((∑ k, x k) * y i + (∑ k, y k) * x i))
        + (∑ k, x k) * ∑ k, y k)
    = ∑ j, ∑ i, ((if i < j ∧ decide (y j ≤ y i) = false then 4 else 0) - 1)
        * ((x j - x i) * (y j - y i)) := by
  intro D
  have hge : IsGe (fun a b : ℤ => decide (b ≤ a)) :=
    ⟨fun a b => by simpa using le_total b a, fun a b c h1 h2 => by
      simp only [decide_eq_true_eq] at *; exact le_trans h2 h1⟩
  obtain ⟨u, e⟩ := computeAijbijTerm_eq hge x y
  obtain ⟨π, u', e', _⟩ := computeWeightSums_eq hge y
    (fun i => (![1, y i, x i, x i * y i] : Fin 4 → ℤ))
  unfold computeAijbijTerm at e
  simp only at e
  rw [e', Except.ok_bind', Except.pure_eq, Except.ok.injEq, Prod.mk.injEq] at e
  rw [← e.1]
  simp only [Finset.sum_apply, Matrix.cons_val_zero, Matrix.cons_val_one, Matrix.cons_val]
  rfl

theorem abs_sum_pairs_le {B : ℤ} (hB : 0 ≤ B) (f : Fin n → Fin n → ℤ) (hf : ∀ j i, |f j i| ≤ B)
    (D : Fin n → Finset (Fin n)) (hD : ∀ j, D j ⊆ univ.filter fun i => i < j) :
    2 * |∑ j, ∑ i ∈ D j, f j i| ≤ (n : ℤ) ^ 2 * B := by
  have h1 : |∑ j, ∑ i ∈ D j, f j i| ≤ ∑ j : Fin n, ((j : ℕ) : ℤ) * B := by
    refine (abs_sum_le_sum_abs _ _).trans (sum_le_sum fun j _ => ?_)
    refine (abs_sum_le_sum_abs _ _).trans ((sum_le_sum fun i _ => hf j i).trans ?_)
    rw [sum_const, nsmul_eq_mul]
    refine mul_le_mul_of_nonneg_right ?_ hB
    have : (D j).card ≤ (j : ℕ) := by
      refine (card_le_card (hD j)).trans (le_of_eq ?_)
      have : (univ.filter fun i : Fin n => i < j) = Iio j := by ext; simp
      rw [this, Fin.card_Iio]
    exact_mod_cast this
  have h2 : 2 * ∑ j : Fin n, ((j : ℕ) : ℤ) ≤ (n : ℤ) ^ 2 := by
    have h := Finset.sum_range_id_mul_two n
    have h3 : ∑ j : Fin n, ((j : ℕ) : ℤ) = ((∑ i ∈ range n, i : ℕ) : ℤ) := by
      rw [Fin.sum_univ_eq_sum_range (fun i => (i : ℤ)) n]
      push_cast
      rfl
    rw [h3]
    have h4 : ((∑ i ∈ range n, i : ℕ) : ℤ) * 2 = (n * (n - 1) : ℕ) := by exact_mod_cast h
    have h5 : ((n * (n - 1) : ℕ) : ℤ) ≤ (n : ℤ) ^ 2 := by
      have : n * (n - 1) ≤ n ^ 2 := by rw [sq]; exact Nat.mul_le_mul_left _ (Nat.sub_le _ _)
      exact_mod_cast this
    linarith
  rw [← sum_mul] at h1
  nlinarith

/-- `_compute_aijbij_term` on short integers. -/
theorem aijbijNarrow_eq (hw : 2 ≤ w) (hw' : w ≤ 64) (x y : Fin n → ℤ) (hn : 0 < n) (M N : ℤ)
    (hM : 1 ≤ M) (hN : 1 ≤ N) (hx : ∀ i, |x i| ≤ M) (hy : ∀ i, |y i| ≤ N)
    (hb : 3 * (n : ℤ) ^ 2 * (M * N) < 2 ^ w) :
    aijbijNarrow (fun i => wrapW w (x i)) (fun i => wrapW w (y i))
      = .ok (wrap (∑ j, ∑ i, ((if i < j ∧ decide (y j ≤ y i) = false then 4 else 0) - 1)
        * ((x j - x i) * (y j - y i)))) := by
  have hw0 : 0 < w := by omega
  have hpow : (2 : ℤ) ^ w = 2 * 2 ^ (w - 1) := by
    rw [← pow_succ']; congr 1; omega
  have hn1 : (1 : ℤ) ≤ n := by exact_mod_cast hn
  have hMN : M ≤ M * N := by nlinarith
  have hNM : N ≤ M * N := by nlinarith
  have hMN1 : 1 ≤ M * N := by nlinarith
  have hn2 : (n : ℤ) ≤ (n : ℤ) ^ 2 := by nlinarith
  have hbig : (n : ℤ) ^ 2 * (M * N) < 2 ^ (w - 1) := by nlinarith
  have hsmall : M * N < 2 ^ (w - 1) := by nlinarith
  have hXY : ∀ i j, |x i * y j| ≤ M * N := fun i j => by
    rw [abs_mul]; exact mul_le_mul (hx i) (hy j) (abs_nonneg _) (by linarith)
  have hfx : ∀ i, FitsInt w (x i) := fun i => FitsInt.of_abs ((hx i).trans hMN) hsmall
  have hfy : ∀ i, FitsInt w (y i) := fun i => FitsInt.of_abs ((hy i).trans hNM) hsmall
  have hge : IsGe (fun a b : BitVec w => decide (a.toInt ≥ b.toInt)) :=
    ⟨fun a b => by simpa using le_total b.toInt a.toInt, fun a b c h1 h2 => by
      simp only [decide_eq_true_eq] at *; exact le_trans h2 h1⟩
  obtain ⟨π, u', e', _⟩ := computeWeightSums_eq hge (fun i => wrapW w (y i))
    (fun i => (![1, wrapW w (y i), wrapW w (x i), wrapW w (x i) * wrapW w (y i)] : Fin 4 → BitVec w))
  obtain ⟨D, hD⟩ : ∃ D : Fin n → Finset (Fin n),
      D = fun j => univ.filter fun i : Fin n => i < j ∧ decide (y j ≤ y i) = false := ⟨_, rfl⟩
  have hDsub : ∀ j, D j ⊆ univ.filter fun i => i < j := fun j i hi => by
    rw [hD] at hi
    simp only [mem_filter, mem_univ, true_and] at hi ⊢
    exact hi.1
  have hDw : ∀ j, (univ.filter fun i : Fin n => i < j ∧
      decide ((wrapW w (y i)).toInt ≥ (wrapW w (y j)).toInt) = false) = D j := fun j => by
    rw [hD]
    simp only [toInt_wrapW hw0 (hfy _), ge_iff_le]
  simp only [hDw] at e'
  have hT : FitsInt w ((∑ j, x j * y j * ∑ _i ∈ D j, (1 : ℤ)) - (∑ j, x j * ∑ i ∈ D j, y i)
      - (∑ j, y j * ∑ i ∈ D j, x i)) := by
    have h1 := abs_sum_pairs_le (B := M * N) (by linarith) (fun j _ => x j * y j)
      (fun j i => hXY j j) D hDsub
    have h2 := abs_sum_pairs_le (B := M * N) (by linarith) (fun j i => x j * y i)
      (fun j i => hXY j i) D hDsub
    have h3 := abs_sum_pairs_le (B := M * N) (by linarith) (fun j i => y j * x i)
      (fun j i => by rw [mul_comm]; exact hXY i j) D hDsub
    simp only [mul_sum, mul_one]
    have h1' := abs_le.1 (le_refl |∑ j, ∑ i ∈ D j, x j * y j|)
    have h2' := abs_le.1 (le_refl |∑ j, ∑ i ∈ D j, x j * y i|)
    have h3' := abs_le.1 (le_refl |∑ j, ∑ i ∈ D j, y j * x i|)
    constructor <;> linarith
  have hS : ∀ j, FitsInt w (∑ i ∈ D j, x i * y i) := fun j => by
    refine FitsInt.of_abs (b := n * (M * N)) ?_ (by nlinarith)
    refine (abs_sum_le_sum_abs _ _).trans ((sum_le_sum fun i _ => hXY i i).trans ?_)
    rw [sum_const, nsmul_eq_mul]
    refine mul_le_mul_of_nonneg_right ?_ (by linarith)
    have := card_le_univ (D j)
    rw [Fintype.card_fin] at this
    exact_mod_cast this
  have hC : FitsInt w (∑ i, (n : ℤ) * x i * y i) := by
    refine FitsInt.of_abs (b := (n : ℤ) ^ 2 * (M * N)) ?_ hbig
    refine (abs_sum_le_sum_abs _ _).trans ?_
    calc ∑ i, |(n : ℤ) * x i * y i| ≤ ∑ _i : Fin n, (n : ℤ) * (M * N) := by
          refine sum_le_sum fun i _ => ?_
          rw [mul_assoc, abs_mul, abs_of_nonneg (by linarith : (0 : ℤ) ≤ n)]
          exact mul_le_mul_of_nonneg_left (hXY i i) (by linarith)
      _ = (n : ℤ) ^ 2 * (M * N) := by
          rw [sum_const, card_univ, Fintype.card_fin, nsmul_eq_mul]; ring
  have hnw : n < 2 ^ (w - 1) := by
    have : (n : ℤ) < 2 ^ (w - 1) := by nlinarith
    exact_mod_cast this
  unfold aijbijNarrow
  simp only
  rw [e', Except.ok_bind']
  simp only [hnw, not_true_eq_false, if_false, Finset.sum_apply, Matrix.cons_val_zero,
    Matrix.cons_val_one, Matrix.cons_val, Except.pure_eq]
  have hformula := aijbij_formula x y
  simp only [← congrFun hD] at hformula
  rw [← hformula]
  have t1 : (∑ j, wrapW w (x j) * wrapW w (y j) * ∑ _i ∈ D j, (1 : BitVec w))
      - (∑ j, wrapW w (x j) * ∑ i ∈ D j, wrapW w (y i))
      - (∑ j, wrapW w (y j) * ∑ i ∈ D j, wrapW w (x i))
      = wrapW w ((∑ j, x j * y j * ∑ _i ∈ D j, (1 : ℤ)) - (∑ j, x j * ∑ i ∈ D j, y i)
      - (∑ j, y j * ∑ i ∈ D j, x i)) := by
    simp only [map_sub, map_sum, map_mul, map_one]
  have t4 : ∀ j, (∑ i ∈ D j, wrapW w (x i) * wrapW w (y i)).signExtend 64
      = wrap (∑ i ∈ D j, x i * y i) := fun j => by
    rw [← signExtend_wrapW hw0 hw' (hS j)]
    simp only [map_sum, map_mul]
  have t5 : (∑ i, (n : BitVec w) * wrapW w (x i) * wrapW w (y i)).signExtend 64
      = wrap (∑ i, (n : ℤ) * x i * y i) := by
    rw [← signExtend_wrapW hw0 hw' hC]
    simp only [map_sum, map_mul, map_natCast]
  rw [t1, signExtend_wrapW hw0 hw' hT, t5]
  simp only [t4, signExtend_wrapW hw0 hw' (hfx _), signExtend_wrapW hw0 hw' (hfy _)]
  simp only [map_sub, map_add, map_mul, map_sum, map_ofNat]

/-- Mergesort on short integers computes the exact terms modulo `2 ^ 64` if `3 n² M N < 2 ^ w`. -/
theorem mergesortTerms_signed (hw : 2 ≤ w) (hw' : w ≤ 64)
    (argsort : (Fin n → BitVec w) → Equiv.Perm (Fin n))
    (hs : ∀ v : Fin n → BitVec w, Monotone fun i => (v (argsort v i)).toInt)
    (x y : Fin n → BitVec w) (hn : 0 < n) (M N : ℤ) (hM : 1 ≤ M) (hN : 1 ≤ N)
    (hx : ∀ i, |(x i).toInt| ≤ M) (hy : ∀ i, |(y i).toInt| ≤ N)
    (hb : 3 * (n : ℤ) ^ 2 * (M * N) < 2 ^ w) :
    mergesortTermsNarrow argsort x y
      = .ok ((exactTerms (argsort x) (fun i => (x i).toInt) (fun i => (y i).toInt)).map wrap) := by
  have hX : ∀ i, x i = wrapW w (x i).toInt := fun i => (wrapW_toInt _).symm
  have hY : ∀ i, y i = wrapW w (y i).toInt := fun i => (wrapW_toInt _).symm
  have hσm := hs x
  have hτm := hs fun i => y (argsort x i)
  have hagg := aijbijNarrow_eq hw hw' (fun i => (x (argsort x i)).toInt)
    (fun i => (y (argsort x i)).toInt) hn M N hM hN (fun i => hx _) (fun i => hy _) hb
  simp only [← hX, ← hY] at hagg
  unfold mergesortTermsNarrow
  simp only
  rw [hagg, Except.ok_bind']
  generalize argsort (fun i => y (argsort x i)) = τ at *
  generalize argsort x = σ at *
  simp only [Except.ok_bind', computeRowSums_eq hn, Except.pure_eq]
  have h1 := mergeSpecTerms_eq σ τ (fun i => (x i).toInt) (fun i => (y i).toInt) hσm hτm
  congr 1
  have h2 : (exactTerms σ (fun i => (x i).toInt) (fun i => (y i).toInt))
      = mergeSpecTerms (fun a b : ℤ => decide (b ≤ a)) σ τ (fun i => (x i).toInt)
        (fun i => (y i).toInt) := by rw [h1]; rfl
  rw [h2]
  have hb' : scatter (fun _ => (0 : BitVec 64)) (⇑τ)
      (fun i => ∑ q, sgnLt q i * ((y (σ (τ i))).signExtend 64 - (y (σ (τ q))).signExtend 64))
      = fun i => ∑ q, sgnLt q (τ.symm i) *
        ((y (σ i)).signExtend 64 - (y (σ (τ q))).signExtend 64) := by
    funext i
    rw [scatter_perm]
    simp
  rw [hb']
  unfold mergeSpecTerms CoreTerms.map
  simp only [signExtend_eq hw', map_sum, map_mul, map_sub, map_sgnLt]

end Dcor

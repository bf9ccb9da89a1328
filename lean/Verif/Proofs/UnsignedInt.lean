/-
The AVL method on unsigned integers: agreement with exact arithmetic when the intermediate results fit.
-/
import Verif.Model.UnsignedInt
import Verif.Proofs.NarrowInt

namespace Dcor

open Finset

variable {n w : ℕ}

/-- The number is a value of the unsigned dtype of `w` bits. -/
def FitsNat (w : ℕ) (z : ℤ) : Prop := 0 ≤ z ∧ z < 2 ^ w

theorem toNat_wrapW {z : ℤ} (h : FitsNat w z) : ((wrapW w z).toNat : ℤ) = z := by
  show ((BitVec.ofInt w z).toNat : ℤ) = z
  have h2 : (0 : ℤ) < 2 ^ w := by positivity
  rw [BitVec.toNat_ofInt, Int.toNat_of_nonneg (Int.emod_nonneg _ (by push_cast; exact h2.ne'))]
  exact Int.emod_eq_of_lt h.1 (by push_cast; exact h.2)

theorem toNat_wrap {z : ℤ} (h1 : 0 ≤ z) (h2 : z < 2 ^ 64) : ((wrap z).toNat : ℤ) = z :=
  toNat_wrapW (w := 64) ⟨h1, h2⟩

theorem wrapW_toNat (v : BitVec w) : wrapW w (v.toNat : ℤ) = v := by
  show ((v.toNat : ℤ) : BitVec w) = v
  rw [Int.cast_natCast]
  exact BitVec.ofNat_toNat w v |>.trans (BitVec.setWidth_eq v)

theorem zeroExtend_eq (hw : w ≤ 64) (v : BitVec w) : v.zeroExtend 64 = wrap (v.toNat : ℤ) := by
  rw [← wrapW_toNat (w := 64) (v.zeroExtend 64)]
  congr 2
  rw [BitVec.zeroExtend, BitVec.toNat_setWidth]
  exact Nat.mod_eq_of_lt (lt_of_lt_of_le v.isLt (Nat.pow_le_pow_right (by norm_num) hw))

theorem zeroExtend_wrapW (hw : w ≤ 64) {z : ℤ} (h : FitsNat w z) : (wrapW w z).zeroExtend 64 = wrap z := by
  rw [zeroExtend_eq hw, toNat_wrapW h]

theorem store_list_sum_unsigned (hw : w ≤ 64) (l : List (BitVec w)) :
    ((l.map (BitVec.zeroExtend 64)).sum).truncate w = l.sum := by
  have h1 : (l.map (BitVec.zeroExtend 64)).sum = wrap (l.map fun v => (v.toNat : ℤ)).sum := by
    rw [map_list_sum, List.map_map]
    congr 1
    exact List.map_congr_left fun v _ => zeroExtend_eq hw v
  rw [h1, truncate_wrap hw, map_list_sum, List.map_map]
  have h2 : (⇑(wrapW w) ∘ fun v : BitVec w => (v.toNat : ℤ)) = id := funext fun v => wrapW_toNat v
  rw [h2, List.map_id]

theorem unsigned_isMonoid (hw : w ≤ 64) (L : ℕ) : (NarrowType.unsigned w).IsMonoid L :=
  ⟨rfl, fun _ _ => rfl, fun l _ => store_list_sum_unsigned hw l⟩

/-- The sums of step 7 are right modulo `2 ^ 64` if the products fit. -/
theorem narrowG_unsigned (hw : w ≤ 64) (τ : Equiv.Perm (Fin n)) (c : Fin n → ℤ) (r : Fin n)
    (hc : ∀ i, FitsNat w (c i))
    (h1 : FitsNat w (2 * ∑ q, if τ.symm q < τ.symm r then c q else 0))
    (h2 : FitsNat w (2 * ∑ q, if q < r then c q else 0))
    (h3 : FitsNat w (4 * ∑ q, if q < r ∧ τ.symm q < τ.symm r then c q else 0)) :
    narrowG (.unsigned w) τ (fun i => wrapW w (c i)) r = wrap (signedSum τ c r) := by
  have hl : ∀ i, (NarrowType.unsigned w).load (wrapW w (c i)) = wrap (c i) := fun i =>
    zeroExtend_wrapW hw (hc i)
  have hst : ∀ (p : Fin n → Prop) [DecidablePred p],
      (NarrowType.unsigned w).store (∑ q, if p q then wrap (c q) else 0)
        = wrapW w (∑ q, if p q then c q else 0) := by
    intro p _
    rw [← truncate_wrap hw, map_sum]
    show BitVec.truncate w _ = _
    congr 1
    refine sum_congr rfl fun q _ => ?_
    split_ifs
    · rfl
    · exact (map_zero _).symm
  have hg : (∑ q, if q < r ∧ τ.symm q < τ.symm r then wrapW w (c q) else 0)
      = wrapW w (∑ q, if q < r ∧ τ.symm q < τ.symm r then c q else 0) := by
    rw [map_sum]
    refine sum_congr rfl fun q _ => ?_
    split_ifs
    · rfl
    · exact (map_zero _).symm
  have hsc : ∀ (k : ℕ) (z : ℤ), FitsNat w (k * z) →
      (NarrowType.unsigned w).scale k (wrapW w z) = wrap (k * z) := by
    intro k z hz
    show BitVec.zeroExtend 64 ((k : BitVec w) * wrapW w z) = _
    rw [← zeroExtend_wrapW hw hz, map_mul, map_natCast]
  unfold narrowG
  simp only [hl]
  rw [hst fun q => τ.symm q < τ.symm r, hst fun q => q < r, hg,
    hsc 2 _ (by exact_mod_cast h1), hsc 2 _ (by exact_mod_cast h2), hsc 4 _ (by exact_mod_cast h3),
    signedSum_closed]
  simp only [map_add, map_sub, map_mul, map_sum]
  rfl

/-- AVL on unsigned integers computes the exact sum of products modulo `2 ^ 64` if `4 (n - 1) M N` fits. -/
theorem avlTerms_unsigned (hw : w ≤ 64) (argsort : (Fin n → BitVec w) → Equiv.Perm (Fin n))
    (hs : ∀ v : Fin n → BitVec w, Monotone fun i => (v (argsort v i)).toNat)
    (x y : Fin n → BitVec w) (hn : 3 < n) (M N : ℤ) (hM : 1 ≤ M) (hN : 1 ≤ N)
    (hx : ∀ i, ((x i).toNat : ℤ) ≤ M) (hy : ∀ i, ((y i).toNat : ℤ) ≤ N)
    (hb : 4 * ((n : ℤ) - 1) * (M * N) < 2 ^ w) :
    avlTermsNarrow (.unsigned w) argsort x y
      = .ok ((exactTerms (Equiv.refl _) (fun i => ((x i).toNat : ℤ)) (fun i => ((y i).toNat : ℤ))).map wrap) := by
  obtain ⟨X, hX⟩ : ∃ X : Fin n → ℤ, X = fun i => ((x i).toNat : ℤ) := ⟨_, rfl⟩
  obtain ⟨Y, hY⟩ : ∃ Y : Fin n → ℤ, Y = fun i => ((y i).toNat : ℤ) := ⟨_, rfl⟩
  have hxX : ∀ i, x i = wrapW w (X i) := fun i => by rw [hX]; exact (wrapW_toNat _).symm
  have hyY : ∀ i, y i = wrapW w (Y i) := fun i => by rw [hY]; exact (wrapW_toNat _).symm
  have hX0 : ∀ i, 0 ≤ X i := fun i => by rw [hX]; exact Int.natCast_nonneg _
  have hY0 : ∀ i, 0 ≤ Y i := fun i => by rw [hY]; exact Int.natCast_nonneg _
  have hXM : ∀ i, X i ≤ M := fun i => by rw [hX]; exact hx i
  have hYN : ∀ i, Y i ≤ N := fun i => by rw [hY]; exact hy i
  have hn' : (3 : ℤ) < n := by exact_mod_cast hn
  have hMN : M ≤ M * N := by nlinarith
  have hNM : N ≤ M * N := by nlinarith
  have h1 : 1 ≤ M * N := by nlinarith
  have hXY : ∀ i, X i * Y i ≤ M * N := fun i =>
    mul_le_mul (hXM i) (hYN i) (hY0 i) (by linarith)
  have hsmall : M * N < 2 ^ w := by nlinarith
  have hg : ∀ (τ : Equiv.Perm (Fin n)) (c : Fin n → ℤ) (r : Fin n), (∀ i, 0 ≤ c i) → (∀ i, c i ≤ M * N) →
      narrowG (.unsigned w) τ (fun i => wrapW w (c i)) r = wrap (signedSum τ c r) := by
    intro τ c r hc0 hc
    have hk : ∀ (k : ℤ) (p : Fin n → Prop) [DecidablePred p], ¬ p r → 0 ≤ k → k ≤ 4 →
        FitsNat w (k * ∑ q, if p q then c q else 0) := by
      intro k p _ hp hk0 hk4
      have hs0 : 0 ≤ ∑ q, if p q then c q else 0 := sum_nonneg fun q _ => by
        split_ifs
        · exact hc0 q
        · exact le_rfl
      have hs1 := abs_sum_others c (fun i => by rw [abs_of_nonneg (hc0 i)]; exact hc i) r p hp
      rw [abs_of_nonneg hs0] at hs1
      refine ⟨mul_nonneg hk0 hs0, lt_of_le_of_lt ?_ hb⟩
      rw [mul_assoc]
      exact mul_le_mul hk4 hs1 hs0 (by norm_num)
    exact narrowG_unsigned hw τ c r (fun i => ⟨hc0 i, lt_of_le_of_lt (hc i) hsmall⟩)
      (hk 2 (fun q => τ.symm q < τ.symm r) (lt_irrefl _) (by norm_num) (by norm_num))
      (hk 2 (fun q => q < r) (lt_irrefl _) (by norm_num) (by norm_num))
      (hk 4 (fun q => q < r ∧ τ.symm q < τ.symm r) (fun h => lt_irrefl _ h.1) (by norm_num)
        (by norm_num))
  have hlX : ∀ i, (NarrowType.unsigned w).load (x i) = wrap (X i) := fun i => by
    rw [hX]; exact zeroExtend_eq hw _
  have hlY : ∀ i, (NarrowType.unsigned w).load (y i) = wrap (Y i) := fun i => by
    rw [hY]; exact zeroExtend_eq hw _
  have hmul : ∀ i, (NarrowType.unsigned w).mul (x i) (y i) = wrapW w (X i * Y i) := fun i => by
    rw [map_mul, ← hxX, ← hyY]; rfl
  have hlXY : ∀ i, (NarrowType.unsigned w).load ((NarrowType.unsigned w).mul (x i) (y i))
      = wrap (X i * Y i) := fun i => by
    rw [hmul]
    exact zeroExtend_wrapW hw ⟨mul_nonneg (hX0 i) (hY0 i), lt_of_le_of_lt (hXY i) hsmall⟩
  have hmono : ∀ (v : Fin n → BitVec w) (π : Equiv.Perm (Fin n)), (Monotone fun i => (v (π i)).toNat) →
      Monotone fun i => ((v (π i)).toNat : ℤ) := fun v π h a b hab => Int.ofNat_le.2 (h hab)
  have hσm := hmono _ _ (hs x)
  have hρm := hmono _ _ (hs y)
  have hτm := hmono (fun i => y (argsort x i)) _ (hs fun i => y (argsort x i))
  rw [avlTermsNarrow_eq (.unsigned w) (unsigned_isMonoid hw _) argsort x y hn _ _ _ rfl rfl rfl]
  generalize argsort (fun i => y (argsort x i)) = τ at *
  generalize argsort x = σ at *
  generalize argsort y = ρ at *
  have e1 : narrowG (.unsigned w) τ (fun _ => (NarrowType.unsigned w).one)
      = fun r => wrap (signedSum τ (fun _ => 1) r) := by
    funext r
    rw [← hg τ (fun _ => 1) r (fun _ => by norm_num) fun _ => h1]
    simp only [map_one]
    rfl
  have e2 : narrowG (.unsigned w) τ (fun i => (NarrowType.unsigned w).mul (x (σ i)) (y (σ i)))
      = fun r => wrap (signedSum τ (fun i => X (σ i) * Y (σ i)) r) := by
    funext r
    rw [← hg τ (fun i => X (σ i) * Y (σ i)) r (fun i => mul_nonneg (hX0 _) (hY0 _)) fun i => hXY _]
    simp only [hmul]
  have e3 : narrowG (.unsigned w) τ (fun i => y (σ i))
      = fun r => wrap (signedSum τ (fun i => Y (σ i)) r) := by
    funext r
    rw [← hg τ (fun i => Y (σ i)) r (fun i => hY0 _) fun i => (hYN _).trans hNM]
    simp only [← hyY]
  have e4 : narrowG (.unsigned w) τ (fun i => x (σ i))
      = fun r => wrap (signedSum τ (fun i => X (σ i)) r) := by
    funext r
    rw [← hg τ (fun i => X (σ i)) r (fun i => hX0 _) fun i => (hXM _).trans hMN]
    simp only [← hxX]
  have hperm : permTerms σ ρ τ X Y = exactTerms (Equiv.refl _) X Y := by
    rw [permTerms_eq σ ρ τ X Y (by rw [hX]; exact hσm) (by rw [hY]; exact hρm)
      (by rw [hY]; exact hτm)]
    rfl
  rw [← hX, ← hY, ← hperm, ← permTerms_map]
  simp only [e1, e2, e3, e4, hlX, hlY, hlXY]
  congr 1
  refine congrArg (fun m => { permTerms σ ρ τ (fun i => wrap (X i)) (fun i => wrap (Y i)) with
    meanProd := m }) ?_
  show _ = (permTerms σ ρ τ (fun i => wrap (X i)) (fun i => wrap (Y i))).meanProd
  rw [permTerms_map]
  show _ = wrap (permTerms σ ρ τ X Y).meanProd
  rw [← step8 σ ρ τ X Y]
  simp only [map_sum, map_sub, map_add, map_mul]

/-! ### Row sums and totals -/

section sums
variable (σ : Equiv.Perm (Fin n)) (x : Fin n → BitVec w)

private theorem scatter_symm : (scatter (fun i : Fin n => ⟨0, i.pos⟩) σ id : Fin n → Fin n) = σ.symm := by
  funext i; rw [scatter_perm]; rfl

theorem beta_nonneg (X : Fin n → ℤ) (hX : ∀ i, 0 ≤ X i) (i : Fin n) :
    0 ≤ cumsum (fun k => X (σ k)) (σ.symm i) - X (σ (σ.symm i)) := by
  rw [cumsum_sub_self (fun k => X (σ k)) (σ.symm i)]
  exact sum_nonneg fun q _ => by split_ifs; exacts [hX _, le_rfl]

theorem beta_le (X : Fin n → ℤ) (M : ℤ) (hM : 0 ≤ M) (hX : ∀ i, X i ≤ M) (i : Fin n) :
    cumsum (fun k => X (σ k)) (σ.symm i) - X (σ (σ.symm i)) ≤ n * M := by
  rw [cumsum_sub_self (fun k => X (σ k)) (σ.symm i)]
  refine (sum_le_sum fun q _ => (?_ : _ ≤ M)).trans (le_of_eq (by simp))
  split_ifs
  exacts [hX _, hM]

theorem betaUnsigned_eq (hw : w ≤ 64) (i : Fin n) : betaUnsigned σ x i
    = wrap (cumsum (fun k => ((x (σ k)).toNat : ℤ)) (σ.symm i) - ((x (σ (σ.symm i))).toNat : ℤ)) := by
  unfold betaUnsigned
  simp only [scatter_symm, zeroExtend_eq hw]
  rw [cumsum_sub_self (fun k => wrap ((x (σ k)).toNat : ℤ)) (σ.symm i),
    cumsum_sub_self (fun k => ((x (σ k)).toNat : ℤ)) (σ.symm i), map_sum]
  refine sum_congr rfl fun q _ => ?_
  split_ifs
  · rfl
  · exact (map_zero _).symm

theorem axisUnsigned_eq (hw : w ≤ 64) (hσ : Monotone fun i => (x (σ i)).toNat) (M : ℤ) (hM : 0 ≤ M)
    (hx : ∀ i, ((x i).toNat : ℤ) ≤ M) (hb : 2 * (n : ℤ) * M < 2 ^ 63) (i : Fin n) :
    axisUnsigned σ x i = ∑ j, |((x i).toNat : ℝ) - ((x j).toNat : ℝ)| := by
  obtain ⟨X, hX⟩ : ∃ X : Fin n → ℤ, X = fun i => ((x i).toNat : ℤ) := ⟨_, rfl⟩
  have hXi : ∀ i, ((x i).toNat : ℤ) = X i := fun i => by rw [hX]
  have hX0 : ∀ i, 0 ≤ X i := fun i => by rw [hX]; exact Int.natCast_nonneg _
  have hXM : ∀ i, X i ≤ M := fun i => by rw [hX]; exact hx i
  have hbeta := beta_nonneg σ X hX0 i
  have hbeta' := beta_le σ X M hM hXM i
  have hn0 : (0 : ℤ) ≤ n := Int.natCast_nonneg _
  have hnM : (n : ℤ) * M < 2 ^ 62 := by linarith
  have hsum : ((∑ k, (x k).zeroExtend 64 : BitVec 64).toNat : ℤ) = ∑ k, X k := by
    simp only [zeroExtend_eq hw, hXi]
    rw [← map_sum]
    refine toNat_wrap (sum_nonneg fun k _ => hX0 k) (lt_of_le_of_lt ((sum_le_sum fun k _ => hXM k).trans (le_of_eq (by simp))) (hnM.trans (by norm_num)))
  have hmid : (((2 * (((σ.symm i : Fin n) : ℕ) : BitVec 64) - (n : BitVec 64)) * (x i).zeroExtend 64).toInt)
      = (2 * (((σ.symm i : Fin n) : ℕ) : ℤ) - (n : ℤ)) * X i := by
    have hlt : (((σ.symm i : Fin n) : ℕ) : ℤ) < n := by exact_mod_cast (σ.symm i).isLt
    have h0 : (0 : ℤ) ≤ (((σ.symm i : Fin n) : ℕ) : ℤ) := Int.natCast_nonneg _
    have e : (2 * (((σ.symm i : Fin n) : ℕ) : BitVec 64) - (n : BitVec 64)) * (x i).zeroExtend 64
        = wrap ((2 * (((σ.symm i : Fin n) : ℕ) : ℤ) - (n : ℤ)) * X i) := by
      rw [zeroExtend_eq hw, hXi, map_mul, map_sub, map_mul, map_natCast, map_natCast, map_ofNat]
    have hxm := mul_le_mul_of_nonneg_left (hXM i) hn0
    have hx0 := mul_nonneg hn0 (hX0 i)
    have hx1 := mul_nonneg h0 (hX0 i)
    have hx2 := mul_le_mul_of_nonneg_right hlt.le (hX0 i)
    rw [e]
    refine toInt_wrap ?_ ?_ <;> rw [sub_mul, mul_assoc] <;> norm_num <;> norm_num at hnM <;> linarith
  have hbt : ((2 * betaUnsigned σ x i).toNat : ℤ)
      = 2 * (cumsum (fun k => X (σ k)) (σ.symm i) - X (σ (σ.symm i))) := by
    rw [betaUnsigned_eq σ x hw]
    simp only [hXi]
    rw [show (2 : BitVec 64) = wrap 2 from (map_ofNat _ _).symm, ← map_mul]
    exact toNat_wrap (by linarith)
      (lt_of_le_of_lt (mul_le_mul_of_nonneg_left hbeta' (by norm_num)) (by linarith))
  have hmain : axisUnsigned σ x i = (((∑ i, X i) + (2 * (((σ.symm i : Fin n) : ℕ) : ℤ) - (n : ℤ)) * X i
      - 2 * (cumsum (fun k => X (σ k)) (σ.symm i) - X (σ (σ.symm i))) : ℤ) : ℝ) := by
    unfold axisUnsigned
    simp only [scatter_symm]
    rw [hmid, ← Int.cast_natCast (R := ℝ) (BitVec.toNat _), hsum,
      ← Int.cast_natCast (R := ℝ) (BitVec.toNat _), hbt]
    push_cast
    rfl
  have hp := permTerms_eq σ σ (Equiv.refl _) X X (by rw [hX]; exact fun a b hab => Int.ofNat_le.2 (hσ hab))
    (by rw [hX]; exact fun a b hab => Int.ofNat_le.2 (hσ hab))
    (by rw [hX]; exact fun a b hab => Int.ofNat_le.2 (hσ hab))
  have hp' := congrFun (congrArg CoreTerms.aAxis hp) i
  rw [hmain, axis_eq σ X i]
  refine (congrArg (Int.cast : ℤ → ℝ) hp').trans ?_
  push_cast
  simp only [hX, Int.cast_natCast]

theorem totalUnsigned_eq (hw : w ≤ 64) (hσ : Monotone fun i => (x (σ i)).toNat) (M : ℤ) (hM : 0 ≤ M)
    (hx : ∀ i, ((x i).toNat : ℤ) ≤ M) (hb : 2 * (n : ℤ) ^ 2 * M < 2 ^ 63) :
    totalUnsigned σ x = ∑ i, ∑ j, |((x i).toNat : ℝ) - ((x j).toNat : ℝ)| := by
  obtain ⟨X, hX⟩ : ∃ X : Fin n → ℤ, X = fun i => ((x i).toNat : ℤ) := ⟨_, rfl⟩
  have hXi : ∀ i, ((x i).toNat : ℤ) = X i := fun i => by rw [hX]
  have hX0 : ∀ i, 0 ≤ X i := fun i => by rw [hX]; exact Int.natCast_nonneg _
  have hXM : ∀ i, X i ≤ M := fun i => by rw [hX]; exact hx i
  have h1 : (2 * ∑ i, (((σ.symm i : Fin n) : ℕ) : BitVec 64) * (x i).zeroExtend 64).toInt
      = 2 * ∑ i, (((σ.symm i : Fin n) : ℕ) : ℤ) * X i := by
    have e : (2 * ∑ i, (((σ.symm i : Fin n) : ℕ) : BitVec 64) * (x i).zeroExtend 64)
        = wrap (2 * ∑ i, (((σ.symm i : Fin n) : ℕ) : ℤ) * X i) := by
      rw [map_mul, map_ofNat, map_sum]
      congr 1
      refine sum_congr rfl fun i _ => ?_
      rw [zeroExtend_eq hw, hXi, map_mul, map_natCast]
    have hs0 : 0 ≤ ∑ i, (((σ.symm i : Fin n) : ℕ) : ℤ) * X i :=
      sum_nonneg fun i _ => mul_nonneg (Int.natCast_nonneg _) (hX0 i)
    have hs1 : ∑ i, (((σ.symm i : Fin n) : ℕ) : ℤ) * X i ≤ (n : ℤ) ^ 2 * M := by
      refine (sum_le_sum fun i _ => (?_ : _ ≤ (n : ℤ) * M)).trans (le_of_eq (by simp; ring))
      have hlt : (((σ.symm i : Fin n) : ℕ) : ℤ) ≤ n := by exact_mod_cast (σ.symm i).isLt.le
      exact mul_le_mul hlt (hXM i) (hX0 i) (Int.natCast_nonneg _)
    rw [e]
    exact toInt_wrap (by norm_num; linarith) (by linarith)
  have h2 : ((2 * ∑ i, betaUnsigned σ x i).toNat : ℤ)
      = 2 * ∑ i, (cumsum (fun k => X (σ k)) (σ.symm i) - X (σ (σ.symm i))) := by
    simp only [betaUnsigned_eq σ x hw, hXi]
    rw [show (2 : BitVec 64) = wrap 2 from (map_ofNat _ _).symm, ← map_sum, ← map_mul]
    have hs0 : 0 ≤ ∑ i, (cumsum (fun k => X (σ k)) (σ.symm i) - X (σ (σ.symm i))) :=
      sum_nonneg fun i _ => beta_nonneg σ X hX0 i
    have hs1 : ∑ i, (cumsum (fun k => X (σ k)) (σ.symm i) - X (σ (σ.symm i))) ≤ (n : ℤ) ^ 2 * M := by
      refine (sum_le_sum fun i _ => beta_le σ X M hM hXM i).trans (le_of_eq (by simp; ring))
    exact toNat_wrap (by linarith)
      (lt_of_le_of_lt (mul_le_mul_of_nonneg_left hs1 (by norm_num)) (by linarith))
  have hmain : totalUnsigned σ x = ((2 * (∑ i, (((σ.symm i : Fin n) : ℕ) : ℤ) * X i)
      - 2 * ∑ i, (cumsum (fun k => X (σ k)) (σ.symm i) - X (σ (σ.symm i))) : ℤ) : ℝ) := by
    unfold totalUnsigned
    simp only [scatter_symm]
    rw [h1, ← Int.cast_natCast (R := ℝ) (BitVec.toNat _), h2]
    push_cast
    rfl
  have hp := permTerms_eq σ σ (Equiv.refl _) X X (by rw [hX]; exact fun a b hab => Int.ofNat_le.2 (hσ hab))
    (by rw [hX]; exact fun a b hab => Int.ofNat_le.2 (hσ hab))
    (by rw [hX]; exact fun a b hab => Int.ofNat_le.2 (hσ hab))
  have hp' := congrArg CoreTerms.aTotal hp
  rw [hmain, total_eq σ X]
  refine (congrArg (Int.cast : ℤ → ℝ) hp').trans ?_
  push_cast
  simp only [hX, Int.cast_natCast]

end sums

end Dcor

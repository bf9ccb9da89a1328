/-
Distances of unsigned integers.
-/
import Verif.Model.UnsignedMatrix
import Verif.Proofs.Api
import Verif.Proofs.Homogeneity

namespace Dcor

open Finset

variable {n m p q w w' : ℕ}

private theorem toNat_cast (w m : ℕ) : ((m : ℕ) : BitVec w).toNat = m % 2 ^ w := by
  show (BitVec.ofNat w m).toNat = _
  rw [BitVec.toNat_ofNat]

private theorem cast_toNat (v : BitVec w) : ((v.toNat : ℕ) : BitVec w) = v := by
  apply BitVec.eq_of_toNat_eq
  rw [toNat_cast, Nat.mod_eq_of_lt v.isLt]

/-- If the squares of the differences fit, the distances between the observations of two samples are right. -/
theorem cdistNaiveUnsigned_eq (x : Fin n → Fin p → BitVec w) (y : Fin m → Fin p → BitVec w) (α : ℝ)
    (hsq : ∀ i k c, (((x i c).toNat : ℤ) - (y k c).toNat) ^ 2 < 2 ^ w)
    (hsum : ∀ i k, ∑ c, (((x i c).toNat : ℤ) - (y k c).toNat) ^ 2 < 2 ^ 64) (k : Fin m) (i : Fin n) :
    cdistNaiveUnsigned x y α k i = Spec.dist α (fun c => ((x i c).toNat : ℝ)) (fun c => ((y k c).toNat : ℝ)) := by
  obtain ⟨z, hz⟩ : ∃ z : Fin p → ℕ, ∀ c, (z c : ℤ) = (((x i c).toNat : ℤ) - (y k c).toNat) ^ 2 :=
    ⟨fun c => ((((x i c).toNat : ℤ) - (y k c).toNat) ^ 2).toNat, fun c => Int.toNat_of_nonneg (sq_nonneg _)⟩
  have h1 : ∀ c, (x i c - y k c) ^ 2 = ((z c : ℕ) : BitVec w) := fun c => by
    have := congrArg (Int.cast : ℤ → BitVec w) (hz c)
    rw [Int.cast_natCast, Int.cast_pow, Int.cast_sub, Int.cast_natCast, Int.cast_natCast, cast_toNat, cast_toNat] at this
    exact this.symm
  have h2 : ∀ c, ((x i c - y k c) ^ 2).setWidth 64 = ((z c : ℕ) : BitVec 64) := fun c => by
    have hlt : z c < 2 ^ w := by have := hsq i k c; rw [← hz c] at this; exact_mod_cast this
    rw [h1]
    apply BitVec.eq_of_toNat_eq
    rw [BitVec.toNat_setWidth, toNat_cast, toNat_cast, Nat.mod_eq_of_lt hlt]
  have h3 : (sumUnsigned fun c => (x i c - y k c) ^ 2).toNat = ∑ c, z c := by
    unfold sumUnsigned
    simp only [h2]
    rw [← Nat.cast_sum, toNat_cast, Nat.mod_eq_of_lt]
    have := hsum i k
    simp only [← hz] at this
    exact_mod_cast this
  have hzR : ∀ c, (z c : ℝ) = ((x i c).toNat - (y k c).toNat : ℝ) ^ 2 := fun c => by
    have := congrArg (Int.cast : ℤ → ℝ) (hz c)
    push_cast at this
    exact this
  unfold cdistNaiveUnsigned
  rw [h3, Spec.dist_eq_rpow]
  push_cast
  simp only [hzR]

theorem pairwiseDistancesUnsigned_symm (x : Fin n → Fin p → BitVec w) (α : ℝ) : Symm (pairwiseDistancesUnsigned x α) := by
  intro i j
  unfold pairwiseDistancesUnsigned cdistNaiveUnsigned
  have (c : Fin p) : (x i c - x j c) ^ 2 = (x j c - x i c) ^ 2 := by ring
  simp only [this]

theorem pairwiseDistancesUnsigned_diag {α : ℝ} (hα : α ≠ 0) (x : Fin n → Fin p → BitVec w) (i : Fin n) :
    pairwiseDistancesUnsigned x α i i = 0 := by
  have (c : Fin p) : (x i c - x i c) ^ 2 = 0 := by rw [sub_self, zero_pow two_ne_zero]
  unfold pairwiseDistancesUnsigned cdistNaiveUnsigned sumUnsigned
  simp only [this]
  simp [hα]

/-- The naive method computes the statistics of the distances it is given, right or wrong. -/
theorem statsSqrNaiveUnsigned_biased (hn : 0 < n) (x : Fin n → Fin p → BitVec w) (y : Fin n → Fin q → BitVec w') (α : ℝ) :
    let a := pairwiseDistancesUnsigned x α
    let b := pairwiseDistancesUnsigned y α
    statsSqrNaiveUnsigned x y α false
      = .ok ⟨.fin (Spec.dcovSqr a b), .fin (Spec.dcorSqr a b), .fin (Spec.dcovSqr a a), .fin (Spec.dcovSqr b b)⟩ := by
  intro a b
  have ha := pairwiseDistancesUnsigned_symm x α
  have hb := pairwiseDistancesUnsigned_symm y α
  unfold statsSqrNaiveUnsigned naiveTermsUnsigned
  dsimp only
  rw [biased_value _ _ _ hn ha hb rfl rfl rfl rfl, biased_value _ _ _ hn ha ha rfl rfl rfl rfl,
    biased_value _ _ _ hn hb hb rfl rfl rfl rfl]
  simp only [Except.ok_bind']
  show Except.ok _ = _
  congr 2
  exact ratio_eq _ _ _

theorem statsSqrNaiveUnsigned_unbiased (hn : 3 < n) (x : Fin n → Fin p → BitVec w) (y : Fin n → Fin q → BitVec w') {α : ℝ}
    (hα : α ≠ 0) :
    let a := pairwiseDistancesUnsigned x α
    let b := pairwiseDistancesUnsigned y α
    statsSqrNaiveUnsigned x y α true
      = .ok ⟨.fin (Spec.uDcovSqr a b), .fin (Spec.uDcorSqr a b), .fin (Spec.uDcovSqr a a), .fin (Spec.uDcovSqr b b)⟩ := by
  intro a b
  have ha := pairwiseDistancesUnsigned_symm x α
  have hb := pairwiseDistancesUnsigned_symm y α
  have ha' := pairwiseDistancesUnsigned_diag hα x
  have hb' := pairwiseDistancesUnsigned_diag hα y
  unfold statsSqrNaiveUnsigned naiveTermsUnsigned
  dsimp only
  rw [unbiased_value _ _ _ hn ha hb ha' hb' rfl rfl rfl rfl, unbiased_value _ _ _ hn ha ha ha' ha' rfl rfl rfl rfl,
    unbiased_value _ _ _ hn hb hb hb' hb' rfl rfl rfl rfl]
  simp only [Except.ok_bind']
  show Except.ok _ = _
  congr 2
  exact ratio_eq _ _ _

/-- The energy distance if the distances are those of real points. -/
theorem energyDistanceUnsigned_eq {env : Env} {o : EnergyOpts} {s : EstStat} (hs : o.stat.resolve env = .ok s) (hm : o.average = none)
    {x : Fin n → Fin p → BitVec w} {y : Fin m → Fin p → BitVec w} {X : Fin n → Fin q → ℝ} {Y : Fin m → Fin q → ℝ}
    (hx : pairwiseDistancesUnsigned x o.exponent = Spec.distMat o.exponent X)
    (hy : pairwiseDistancesUnsigned y o.exponent = Spec.distMat o.exponent Y)
    (hxy : ∀ k i, cdistNaiveUnsigned x y o.exponent k i = Spec.dist o.exponent (X i) (Y k)) :
    energyDistanceUnsigned env x y o = .ok ⟨Spec.energyFP s o.exponent X Y, .npFloat⟩ := by
  rw [← energyFromMatrices_ok hs X Y o.exponent]
  unfold energyDistanceUnsigned energyFromMatrices
  rw [hx, hy, hm]
  have : meanOf (.mat ⟨m, n, cdistNaiveUnsigned x y o.exponent⟩) = meanOf (.mat ⟨n, m, fun i j => Spec.dist o.exponent (X i) (Y j)⟩) := by
    unfold meanOf
    dsimp only
    rw [mul_comm (m : ℝ), sum_comm]
    simp only [hxy]
  simp only [averageFun, this]
  rfl

/-- Differences of multiples of `2 ^ k` have the square zero if `2 k` is at least the number of bits. -/
theorem cdistNaiveUnsigned_multiples {k : ℕ} (hk : w ≤ 2 * k) {α : ℝ} (hα : α ≠ 0) {x : Fin n → Fin p → BitVec w}
    {y : Fin m → Fin p → BitVec w} (hx : ∀ i c, 2 ^ k ∣ (x i c).toNat) (hy : ∀ i c, 2 ^ k ∣ (y i c).toNat) (j : Fin m) (i : Fin n) :
    cdistNaiveUnsigned x y α j i = 0 := by
  have z : ((2 : BitVec w) ^ k) ^ 2 = 0 := by
    rw [← pow_mul, mul_comm k 2]
    have : ((2 : BitVec w) ^ (2 * k)) = ((2 ^ (2 * k) : ℕ) : BitVec w) := by push_cast; rfl
    rw [this]
    apply BitVec.eq_of_toNat_eq
    rw [toNat_cast, Nat.mod_eq_zero_of_dvd (pow_dvd_pow 2 hk)]
    simp
  have e (c : Fin p) : (x i c - y j c) ^ 2 = 0 := by
    obtain ⟨a, ha⟩ := hx i c
    obtain ⟨b, hb⟩ := hy j c
    have h1 : x i c = (2 : BitVec w) ^ k * (a : BitVec w) := by
      rw [← cast_toNat (x i c), ha]; push_cast; rfl
    have h2 : y j c = (2 : BitVec w) ^ k * (b : BitVec w) := by
      rw [← cast_toNat (y j c), hb]; push_cast; rfl
    rw [h1, h2, ← mul_sub, mul_pow, z, zero_mul]
  unfold cdistNaiveUnsigned sumUnsigned
  simp [e, hα]

end Dcor

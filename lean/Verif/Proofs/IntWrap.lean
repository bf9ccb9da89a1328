/-
Wrapping arithmetic agrees with exact arithmetic when the results fit.
-/
import Verif.Model.IntWrap
import Verif.Proofs.Api

namespace Dcor

open Finset

variable {n : ℕ}

/-- Image of the terms under a map. -/
def CoreTerms.map {R S : Type} (f : R → S) (t : CoreTerms R n) : CoreTerms S n where
  meanProd := f t.meanProd
  aAxis := fun i => f (t.aAxis i)
  aTotal := f t.aTotal
  bAxis := fun i => f (t.bAxis i)
  bTotal := f t.bTotal

theorem map_sgnLt {R S : Type} [CommRing R] [CommRing S] (f : R →+* S) (q r : Fin n) :
    f (sgnLt q r) = sgnLt q r := by
  unfold sgnLt
  split_ifs <;> simp

theorem permTerms_map {R S : Type} [CommRing R] [CommRing S] (f : R →+* S)
    (σ ρ τ : Equiv.Perm (Fin n)) (x y : Fin n → R) :
    permTerms σ ρ τ (fun i => f (x i)) (fun i => f (y i)) = (permTerms σ ρ τ x y).map f := by
  unfold permTerms CoreTerms.map
  simp only [map_sum, map_mul, map_sub, map_sgnLt]

theorem mergeSpecTerms_map {R S : Type} [CommRing R] [CommRing S] (f : R →+* S)
    (ge : R → R → Bool) (ge' : S → S → Bool) (σ τ : Equiv.Perm (Fin n)) (x y : Fin n → R)
    (hge : ∀ i j, ge' (f (y i)) (f (y j)) = ge (y i) (y j)) :
    mergeSpecTerms ge' σ τ (fun i => f (x i)) (fun i => f (y i))
      = (mergeSpecTerms ge σ τ x y).map f := by
  unfold mergeSpecTerms CoreTerms.map
  simp only [map_sum, map_mul, map_sub, map_sgnLt, map_one, hge]
  congr 1
  refine sum_congr rfl fun j _ => sum_congr rfl fun i _ => ?_
  congr 2
  split_ifs
  · exact (map_ofNat f 4).symm
  · exact (map_zero f).symm

/-- Reduction modulo `2 ^ 64`. -/
abbrev wrap : ℤ →+* BitVec 64 := Int.castRingHom (BitVec 64)

theorem wrap_toInt (v : BitVec 64) : wrap v.toInt = v := by
  show ((v.toInt : ℤ) : BitVec 64) = v
  apply BitVec.eq_of_toInt_eq
  rw [BitVec.toInt_intCast]
  have h₁ := BitVec.two_mul_toInt_lt (x := v)
  have h₂ := BitVec.le_two_mul_toInt (x := v)
  apply Int.bmod_eq_of_le <;> omega

theorem toInt_wrap {z : ℤ} (h₁ : -2 ^ 63 ≤ z) (h₂ : z < 2 ^ 63) : (wrap z).toInt = z := by
  show ((z : ℤ) : BitVec 64).toInt = z
  rw [BitVec.toInt_intCast]
  apply Int.bmod_eq_of_le <;> norm_num <;> omega

/-- The exact terms. -/
def exactTerms (π : Equiv.Perm (Fin n)) (x y : Fin n → ℤ) : CoreTerms ℤ n where
  meanProd := ∑ i, ∑ j, |x i - x j| * |y i - y j|
  aAxis := fun i => ∑ j, |x (π i) - x j|
  aTotal := ∑ i, ∑ j, |x i - x j|
  bAxis := fun i => ∑ j, |y (π i) - y j|
  bTotal := ∑ i, ∑ j, |y i - y j|

/-- Both fast methods compute the exact terms modulo `2 ^ 64`. -/
theorem int64Terms_eq (m : FastMethod) (argsort : (Fin n → BitVec 64) → Equiv.Perm (Fin n))
    (hs : ∀ v : Fin n → BitVec 64, Monotone fun i => (v (argsort v i)).toInt)
    (x y : Fin n → BitVec 64) (hn : 0 < n) (hm : m = .avl → 3 < n) :
    ∃ π : Equiv.Perm (Fin n), int64Terms m argsort x y
      = .ok ((exactTerms π (fun i => (x i).toInt) (fun i => (y i).toInt)).map wrap) := by
  have hx : x = fun i => wrap (x i).toInt := funext fun i => (wrap_toInt _).symm
  have hy : y = fun i => wrap (y i).toInt := funext fun i => (wrap_toInt _).symm
  cases m with
  | avl =>
    refine ⟨Equiv.refl _, ?_⟩
    show avlTermsImpl false argsort x y = _
    rw [avlTermsImpl_eq_permTerms _ _ _ _ (hm rfl)]
    congr 1
    generalize hσ : argsort x = σ
    have hσm := hs x
    have hρm := hs y
    have hτm := hs fun i => y (argsort x i)
    rw [hσ] at hσm hτm
    calc permTerms σ (argsort y) (argsort fun i => y (σ i)) x y
        = permTerms σ (argsort y) (argsort fun i => y (σ i)) (fun i => wrap (x i).toInt)
            (fun i => wrap (y i).toInt) := by rw [← hx, ← hy]
      _ = (permTerms σ (argsort y) (argsort fun i => y (σ i)) (fun i => (x i).toInt)
            (fun i => (y i).toInt)).map wrap := permTerms_map _ _ _ _ _ _
      _ = _ := by rw [permTerms_eq _ _ _ _ _ hσm hρm hτm]; rfl
  | mergesort =>
    refine ⟨argsort x, ?_⟩
    have hge : IsGe (fun a b : BitVec 64 => decide (a.toInt ≥ b.toInt)) :=
      ⟨fun a b => by simpa using le_total b.toInt a.toInt, fun a b c h1 h2 => by
        simp only [decide_eq_true_eq] at *; exact le_trans h2 h1⟩
    obtain ⟨u, e⟩ := mergesortTermsImpl_eq hge argsort x y hn
    have h0 : int64Terms .mergesort argsort x y = .ok (mergeSpecTerms
        (fun a b : BitVec 64 => decide (a.toInt ≥ b.toInt)) (argsort x)
        (argsort fun i => y (argsort x i)) x y) := by
      unfold int64Terms
      simp only
      rw [e]
      rfl
    have hσm := hs x
    have hτm := hs fun i => y (argsort x i)
    rw [h0]
    generalize argsort (fun i => y (argsort x i)) = τ at *
    generalize argsort x = σ at *
    have h1 : mergeSpecTerms (fun a b : BitVec 64 => decide (a.toInt ≥ b.toInt)) σ τ
        (fun i => wrap (x i).toInt) (fun i => wrap (y i).toInt)
        = (mergeSpecTerms (fun a b : ℤ => decide (b ≤ a)) σ τ
            (fun i => (x i).toInt) (fun i => (y i).toInt)).map wrap :=
      mergeSpecTerms_map wrap _ _ σ τ _ _ fun i j => by simp only [wrap_toInt, ge_iff_le]
    rw [← hx, ← hy, mergeSpecTerms_eq σ τ _ _ hσm hτm] at h1
    rw [h1]
    rfl

/-- The number can be stored in an `int64`. -/
def FitsInt64 (z : ℤ) : Prop := -2 ^ 63 ≤ z ∧ z < 2 ^ 63

theorem FitsInt64.of_le {a b : ℤ} (h0 : 0 ≤ a) (hab : a ≤ b) (hb : FitsInt64 b) : FitsInt64 a :=
  ⟨le_trans (by norm_num) h0, lt_of_le_of_lt hab hb.2⟩

/-- The terms represent the distances, if the sums fit. -/
theorem int64ToReal_exact (π : Equiv.Perm (Fin n)) (x y : Fin n → ℤ)
    (h : FitsInt64 (∑ i, ∑ j, |x i - x j| * |y i - y j|))
    (hx : FitsInt64 (∑ i, ∑ j, |x i - x j|)) (hy : FitsInt64 (∑ i, ∑ j, |y i - y j|)) :
    CoreRep ((exactTerms π x y).map wrap).int64ToReal
      (fun i j => |(x i : ℝ) - x j|) (fun i j => |(y i : ℝ) - y j|) := by
  have hax : ∀ (z : Fin n → ℤ), FitsInt64 (∑ i, ∑ j, |z i - z j|) → ∀ i,
      FitsInt64 (∑ j, |z i - z j|) := fun z hz i =>
    FitsInt64.of_le (sum_nonneg fun _ _ => abs_nonneg _)
      (single_le_sum (f := fun i => ∑ j, |z i - z j|)
        (fun _ _ => sum_nonneg fun _ _ => abs_nonneg _) (mem_univ i)) hz
  refine ⟨?_, ⟨π, ?_, ?_⟩, ?_, ?_⟩
  · show ((wrap (∑ i, ∑ j, |x i - x j| * |y i - y j|)).toInt : ℝ) = _
    rw [toInt_wrap h.1 h.2]; push_cast; rfl
  · intro i
    show ((wrap (∑ j, |x (π i) - x j|)).toInt : ℝ) = _
    rw [toInt_wrap (hax x hx (π i)).1 (hax x hx (π i)).2]; push_cast; rfl
  · intro i
    show ((wrap (∑ j, |y (π i) - y j|)).toInt : ℝ) = _
    rw [toInt_wrap (hax y hy (π i)).1 (hax y hy (π i)).2]; push_cast; rfl
  · show ((wrap (∑ i, ∑ j, |x i - x j|)).toInt : ℝ) = _
    rw [toInt_wrap hx.1 hx.2]; push_cast; rfl
  · show ((wrap (∑ i, ∑ j, |y i - y j|)).toInt : ℝ) = _
    rw [toInt_wrap hy.1 hy.2]; push_cast; rfl

theorem absDiff_symm (v : Fin n → ℝ) : Symm fun i j => |v i - v j| :=
  fun i j => abs_sub_comm _ _

end Dcor

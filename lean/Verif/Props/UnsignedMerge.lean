/-
Property C120: the mergesort method on unsigned integers.
-/
import Verif.Proofs.UnsignedMerge
import Verif.Props.UnsignedInts
import Verif.Proofs.SpecAlg
import Mathlib.Algebra.Order.Chebyshev

namespace Dcor.Props

open Finset

variable {n w : ℕ}

/-- C120, the part that holds: with at least `2 ^ w` observations (256 for `uint8`) every call ends with an `OverflowError`. -/
theorem C120_too_long_partial (argsort : (Fin n → BitVec w) → Equiv.Perm (Fin n)) (x y : Fin n → BitVec w) (hn : 2 ^ w ≤ n)
    (u : Bool) :
    dcovSqrUnsignedMerge argsort x y u = .error .overflowError ∧ statsSqrUnsignedMerge argsort x y u = .error .overflowError := by
  have h : ∀ x y : Fin n → BitVec w, aijbijUnsigned x y = .error .overflowError := by
    intro x y
    obtain ⟨π, u', e, _⟩ := computeWeightSums_eq isGe_toNat y (fun i => (![1, y i, x i, x i * y i] : Fin 4 → BitVec w))
    unfold aijbijUnsigned
    simp only
    rw [e, Except.ok_bind', if_pos (not_lt.2 hn)]
    rfl
  have ht : mergesortTermsUnsigned argsort x y = .error .overflowError := by
    unfold mergesortTermsUnsigned
    simp only
    rw [h]
    rfl
  unfold dcovSqrUnsignedMerge statsSqrUnsignedMerge
  rw [ht]
  exact ⟨rfl, rfl⟩

private theorem aij_ok (hn : n < 2 ^ w) (x y : Fin n → BitVec w) : ∃ v, aijbijUnsigned x y = .ok v := by
  obtain ⟨π, u', e, _⟩ := computeWeightSums_eq isGe_toNat y (fun i => (![1, y i, x i, x i * y i] : Fin 4 → BitVec w))
  unfold aijbijUnsigned
  simp only
  rw [e, Except.ok_bind', if_neg (not_not.2 hn)]
  exact ⟨_, rfl⟩

/-- The row sum of the largest observation is too large by `2 ^ 64`. -/
private theorem rowSums_last (hw : w ≤ 32) (hn : 0 < n) (hn2 : n ≤ 2 ^ 20) (x : Fin n → BitVec w)
    (hmax : ∀ i, (x i).toNat ≤ (x ⟨n - 1, by omega⟩).toNat) (hpos : 0 < (x ⟨n - 1, by omega⟩).toNat) :
    ∃ r, rowSumsUnsigned x = .ok r ∧ (2 : ℝ) ^ 64 ≤ r ⟨n - 1, by omega⟩ := by
  unfold rowSumsUnsigned
  rw [dif_pos hn]
  refine ⟨_, rfl, ?_⟩
  dsimp only
  obtain ⟨l, hl⟩ : ∃ l : Fin n, l = ⟨n - 1, by omega⟩ := ⟨_, rfl⟩
  rw [← hl]
  have hlt : ∀ i, (x i).toNat < 2 ^ 32 := fun i => (x i).isLt.trans_le (Nat.pow_le_pow_right (by norm_num) hw)
  have hS : cumsum (fun i => (x i).zeroExtend 64) l = wrap (∑ i, ((x i).toNat : ℤ)) := by
    rw [cumsum_eq_ite]
    rw [map_sum]
    refine sum_congr rfl fun i _ => ?_
    rw [if_pos (by rw [hl]; exact Nat.le_sub_one_of_lt i.2), zeroExtend_eq (by omega)]
  have hge : ((x l).toNat : ℤ) ≤ ∑ i, ((x i).toNat : ℤ) :=
    single_le_sum (f := fun i => ((x i).toNat : ℤ)) (fun i _ => Int.natCast_nonneg _) (mem_univ l)
  have hle : ∑ i, ((x i).toNat : ℤ) ≤ n * (x l).toNat := by
    refine (sum_le_card_nsmul univ _ ((x l).toNat : ℤ) fun i _ => ?_).trans (le_of_eq ?_)
    · rw [hl]; exact_mod_cast hmax i
    · rw [card_univ, Fintype.card_fin, nsmul_eq_mul]
  have hb : (n : ℤ) * (x l).toNat < 2 ^ 52 := by
    have h1 : (n : ℤ) ≤ 2 ^ 20 := by exact_mod_cast hn2
    have h2 : ((x l).toNat : ℤ) < 2 ^ 32 := by exact_mod_cast hlt l
    nlinarith [Int.natCast_nonneg n, Int.natCast_nonneg (x l).toNat]
  have hp : (0 : ℤ) < (x l).toNat := by rw [hl]; exact_mod_cast hpos
  generalize hT : ∑ i, ((x i).toNat : ℤ) = T at *
  have e1 : ((2 * (((l : ℕ) + 1 : ℕ) : BitVec 64) - (n : BitVec 64)) * (x l).zeroExtend 64).toInt = n * (x l).toNat := by
    have : (2 * (((l : ℕ) + 1 : ℕ) : BitVec 64) - (n : BitVec 64)) * (x l).zeroExtend 64 = wrap (n * (x l).toNat) := by
      rw [zeroExtend_eq (by omega)]
      have hl' : (l : ℕ) + 1 = n := by rw [hl]; simp; omega
      rw [hl']
      rw [map_mul, map_natCast, map_natCast]
      ring
    rw [this, toInt_wrap (by nlinarith [Int.natCast_nonneg n]) (by linarith)]
  have e2 : ((wrap T - 2 * wrap T).toNat : ℤ) = 2 ^ 64 - T := by
    have : wrap T - 2 * wrap T = wrap (2 ^ 64 - T) := by
      have : wrap (2 ^ 64) = 0 := by decide
      rw [map_sub, this]
      ring
    rw [this, toNat_wrap (by linarith) (by linarith)]
  have hl1 : n - 1 + 1 = (l : ℕ) + 1 := by rw [hl]
  rw [hS, hl1, e1]
  have e3 : ((wrap T - 2 * wrap T).toNat : ℝ) = 2 ^ 64 - (T : ℝ) := by exact_mod_cast congrArg (Int.cast : ℤ → ℝ) e2
  rw [e3]
  have : (T : ℝ) ≤ ((n * (x l).toNat : ℤ) : ℝ) := by exact_mod_cast hle
  linarith

private theorem refl_of_sorted {v : Fin n → BitVec w} (hv : StrictMono fun i => (v i).toNat) {σ : Equiv.Perm (Fin n)}
    (h : Monotone fun i => (v (σ i)).toNat) : σ = Equiv.refl _ := by
  have hm : Monotone σ := fun i j hij => hv.le_iff_le.1 (h hij)
  have hs : StrictMono σ := hm.strictMono_of_injective σ.injective
  ext i
  exact congrArg _ (congrFun (StrictMono.range_inj hs strictMono_id |>.1 (by rw [Set.range_id, σ.range_eq_univ])) i)

private theorem value_le (hn : 0 < n) (hn2 : n ≤ 2 ^ 20) {mp : ℝ} (hmp : mp / n ^ 2 ≤ 2 ^ 64) (r : Fin n → ℝ) (l : Fin n)
    (hr : (2 : ℝ) ^ 64 ≤ r l) :
    mp / n ^ 2 - 2 * (∑ i, r i * r i) / n ^ 3 + (∑ i, r i) * (∑ i, r i) / n ^ 4 < -2 ^ 67 := by
  have h0 : (0 : ℝ) < n := by exact_mod_cast hn
  have hN : (n : ℝ) ≤ 2 ^ 20 := by exact_mod_cast hn2
  have hcs : (∑ i, r i) * (∑ i, r i) ≤ n * ∑ i, r i * r i := by
    have := sq_sum_le_card_mul_sum_sq (s := univ) (f := r)
    rw [card_univ, Fintype.card_fin] at this
    simpa only [sq] using this
  have h1 : (∑ i, r i) * (∑ i, r i) / (n : ℝ) ^ 4 ≤ (∑ i, r i * r i) / n ^ 3 := by
    rw [div_le_div_iff₀ (by positivity) (by positivity)]
    calc _ ≤ (n * ∑ i, r i * r i) * (n : ℝ) ^ 3 := mul_le_mul_of_nonneg_right hcs (by positivity)
      _ = _ := by ring
  have h2 : (2 : ℝ) ^ 128 ≤ ∑ i, r i * r i := by
    have := single_le_sum (f := fun i => r i * r i) (fun i _ => mul_self_nonneg (r i)) (mem_univ l)
    refine le_trans ?_ this
    show (2 : ℝ) ^ 128 ≤ r l * r l
    calc (2 : ℝ) ^ 128 = 2 ^ 64 * 2 ^ 64 := by norm_num
      _ ≤ r l * r l := mul_le_mul hr hr (by positivity) (le_trans (by positivity) hr)
  have h3 : (2 : ℝ) ^ 68 ≤ (∑ i, r i * r i) / n ^ 3 := by
    rw [le_div_iff₀ (by positivity)]
    calc (2 : ℝ) ^ 68 * n ^ 3 ≤ 2 ^ 68 * (2 ^ 20) ^ 3 := by gcongr
      _ = 2 ^ 128 := by norm_num
      _ ≤ _ := h2
  have e : 2 * (∑ i, r i * r i) / (n : ℝ) ^ 3 = (∑ i, r i * r i) / n ^ 3 + (∑ i, r i * r i) / n ^ 3 := by ring
  rw [e]
  have : (2 : ℝ) ^ 68 - 2 ^ 64 > 2 ^ 67 := by norm_num
  linarith

private theorem terms_self (hw : w ≤ 32) (hn : 2 ≤ n) (hn1 : n < 2 ^ w) (hn2 : n ≤ 2 ^ 20)
    (argsort : (Fin n → BitVec w) → Equiv.Perm (Fin n))
    (hs : ∀ v : Fin n → BitVec w, Monotone fun i => (v (argsort v i)).toNat)
    (x : Fin n → BitVec w) (hx : Function.Injective x) :
    ∃ (c : CoreTerms ℝ n) (r : Fin n → ℝ), mergesortTermsUnsigned argsort x x = .ok c ∧
      (0 ≤ c.meanProd ∧ c.meanProd ≤ 2 ^ 64) ∧ c.aAxis = r ∧ c.bAxis = r ∧ c.aTotal = ∑ i, r i ∧ c.bTotal = ∑ i, r i ∧
      (2 : ℝ) ^ 64 ≤ r ⟨n - 1, by omega⟩ := by
  have hmono : StrictMono fun i => (x (argsort x i)).toNat :=
    (hs x).strictMono_of_injective fun i j hij => (argsort x).injective (hx (BitVec.eq_of_toNat_eq hij))
  have hτ : (argsort fun i => x (argsort x i)) = Equiv.refl _ := refl_of_sorted hmono (hs fun i => x (argsort x i))
  obtain ⟨p, hp⟩ := aij_ok hn1 (fun i => x (argsort x i)) (fun i => x (argsort x i))
  obtain ⟨r, er, hr⟩ := rowSums_last hw (by omega) hn2 (fun i => x (argsort x i))
    (fun i => hs x (Fin.le_def.2 (Nat.le_sub_one_of_lt i.2)))
    (lt_of_le_of_lt (Nat.zero_le _) (hmono (show (⟨0, by omega⟩ : Fin n) < ⟨n - 1, by omega⟩ from by
      rw [Fin.lt_def]; simp; omega)))
  have hsc : scatter (fun _ : Fin n => (0 : ℝ)) (Equiv.refl (Fin n)) r = r := by
    funext i
    rw [scatter_perm]
    rfl
  refine ⟨⟨(p.toNat : ℝ), r, ∑ i, r i, r, ∑ i, r i⟩, r, ?_, ⟨Nat.cast_nonneg _, ?_⟩, rfl, rfl, rfl, rfl, hr⟩
  · unfold mergesortTermsUnsigned
    simp only
    rw [hp, Except.ok_bind', er, Except.ok_bind', hτ]
    simp only [Equiv.refl_apply]
    rw [er, Except.ok_bind']
    have hsc' : scatter (fun _ : Fin n => (0 : ℝ)) (⇑(Equiv.refl (Fin n))) r = r := hsc
    simp only [hsc']
    rfl
  · show (p.toNat : ℝ) ≤ 2 ^ 64
    exact_mod_cast p.isLt.le

/-- C120 fails: for every column of different unsigned integers of 8, 16 or 32 bits that is not too long, the mergesort method
gives a squared distance variance and covariance of the column with itself below `-2 ^ 67`, and therefore the distance covariance 0
and the distance correlation 0, although the first is positive and the second is 1. No error is raised. -/
theorem C120_unsigned_fails (hw : w = 8 ∨ w = 16 ∨ w = 32) (hn : 2 ≤ n) (hn1 : n < 2 ^ w) (hn2 : n ≤ 2 ^ 20)
    (argsort : (Fin n → BitVec w) → Equiv.Perm (Fin n))
    (hs : ∀ v : Fin n → BitVec w, Monotone fun i => (v (argsort v i)).toNat)
    (x : Fin n → BitVec w) (hx : Function.Injective x) :
    let a := absDiff fun i => ((x i).toNat : ℝ)
    (∃ v, dcovSqrUnsignedMerge argsort x x false = .ok (.fin v) ∧ v < -2 ^ 67) ∧
    (∃ s v, statsSqrUnsignedMerge argsort x x false = .ok s ∧ s.varianceX = .fin v ∧ s.varianceY = .fin v ∧ v < -2 ^ 67) ∧
    dcovUnsignedMerge argsort x x = .ok (.fin 0) ∧ dcorUnsignedMerge argsort x x = .ok (.fin 0) ∧
    0 < Spec.dcovSqr a a ∧ Spec.dcorSqr a a = 1 := by
  intro a
  have hw32 : w ≤ 32 := by omega
  have h0 : 0 < n := by omega
  have hspec : 0 < Spec.dcovSqr a a := by
    refine lt_of_le_of_ne (Spec.dcovSqr_self_nonneg a) fun h => ?_
    have hc := (Spec.dcovSqr_self_eq_zero h0 a).1 h.symm
    have := Spec.centre_eq_zero a (absDiff_symm _) (fun i => by simp [a, absDiff]) hc
    have h01 := congrFun (congrFun this ⟨0, h0⟩) ⟨1, by omega⟩
    have h01' : |((x ⟨0, h0⟩).toNat : ℝ) - ((x ⟨1, by omega⟩).toNat : ℝ)| = 0 := h01
    have := hx (BitVec.eq_of_toNat_eq (by exact_mod_cast sub_eq_zero.1 (abs_eq_zero.1 h01')))
    simp at this
  obtain ⟨c, r, hc, hmp, hA, hB, hAt, hBt, hr⟩ := terms_self hw32 hn hn1 hn2 argsort hs x hx
  have hsq : (1 : ℝ) ≤ (n : ℝ) ^ 2 := one_le_pow₀ (by exact_mod_cast h0)
  have hcov : ∀ k, ∃ v, dcovFromTerms k .numpy .numpy c.meanProd c.aAxis c.aTotal c.bAxis c.bTotal false = .ok (.fin v)
      ∧ v < -2 ^ 67 := fun k => by
    rw [dcovFromTerms_biased _ _ _ h0, hA, hB, hAt, hBt]
    exact ⟨_, rfl, value_le h0 hn2 ((div_le_self hmp.1 hsq).trans hmp.2) r _ hr⟩
  have hvar : ∃ v, dcovFromTerms .numpy .numpy .numpy (varTerm fun i => ((x i).toNat : ℝ)) r (∑ i, r i) r (∑ i, r i) false
      = .ok (.fin v) ∧ v < -2 ^ 67 := by
    rw [dcovFromTerms_biased _ _ _ h0]
    refine ⟨_, rfl, value_le h0 hn2 ?_ r _ hr⟩
    rw [varTerm_eq h0, div_le_iff₀ (by positivity)]
    have h1 : ∀ i j, |((x i).toNat : ℝ) - ((x j).toNat : ℝ)| * |((x i).toNat : ℝ) - ((x j).toNat : ℝ)| ≤ 2 ^ 64 := by
      intro i j
      have hlt : ∀ i, ((x i).toNat : ℝ) ≤ 2 ^ 32 := fun i => by
        exact_mod_cast ((x i).isLt.trans_le (Nat.pow_le_pow_right (by norm_num) hw32)).le
      have hd : |((x i).toNat : ℝ) - ((x j).toNat : ℝ)| ≤ 2 ^ 32 := by
        have h1 := hlt i
        have h2 := hlt j
        have h3 : (0 : ℝ) ≤ ((x i).toNat : ℝ) := Nat.cast_nonneg _
        have h4 : (0 : ℝ) ≤ ((x j).toNat : ℝ) := Nat.cast_nonneg _
        rw [abs_le]
        constructor <;> linarith
      calc _ ≤ (2 : ℝ) ^ 32 * 2 ^ 32 := mul_le_mul hd hd (abs_nonneg _) (by positivity)
        _ = 2 ^ 64 := by norm_num
    calc ∑ i, ∑ j, |((x i).toNat : ℝ) - ((x j).toNat : ℝ)| * |((x i).toNat : ℝ) - ((x j).toNat : ℝ)|
        ≤ ∑ _i : Fin n, ∑ _j : Fin n, (2 : ℝ) ^ 64 := sum_le_sum fun i _ => sum_le_sum fun j _ => h1 i j
      _ = 2 ^ 64 * n ^ 2 := by simp only [sum_const, card_univ, Fintype.card_fin, nsmul_eq_mul]; ring
  obtain ⟨v, hv, hv'⟩ := hcov FastMethod.mergesort.meanKind
  obtain ⟨u, hu, hu'⟩ := hvar
  have ed : dcovSqrUnsignedMerge argsort x x false = .ok (.fin v) := by
    unfold dcovSqrUnsignedMerge
    rw [hc, Except.ok_bind', hv]
  have es : statsSqrUnsignedMerge argsort x x false = .ok ⟨.fin v, .fin (Spec.ratio v u u), .fin u, .fin u⟩ := by
    unfold statsSqrUnsignedMerge
    rw [hc]
    simp only [Except.ok_bind']
    rw [hv]
    simp only [hA, hB, hAt, hBt]
    rw [hu]
    simp only [Except.ok_bind', Except.pure_eq]
    exact congrArg (fun t => Except.ok (⟨FP.fin v, t, FP.fin u, FP.fin u⟩ : Stats)) (ratio_eq _ _ _)
  refine ⟨⟨v, ed, hv'⟩, ⟨_, u, es, rfl, rfl, hu'⟩, ?_, ?_, hspec, Spec.ratio_self hspec⟩
  · unfold dcovUnsignedMerge
    rw [ed, Except.ok_bind', sqrtClip_fin, Real.sqrt_eq_zero_of_nonpos (by linarith [show (0 : ℝ) < 2 ^ 67 by norm_num])]
    rfl
  · unfold dcorUnsignedMerge
    rw [es, Except.ok_bind', sqrtClip_fin, Real.sqrt_eq_zero_of_nonpos]
    · rfl
    · show Spec.ratio v u u ≤ 0
      unfold Spec.ratio
      split_ifs
      · exact le_rfl
      · exact div_nonpos_of_nonpos_of_nonneg (by linarith [show (0 : ℝ) < 2 ^ 67 by norm_num]) (Real.sqrt_nonneg _)

/-- The grey levels of C114. -/
example (argsort : (Fin 4 → BitVec 8) → Equiv.Perm (Fin 4))
    (hs : ∀ v : Fin 4 → BitVec 8, Monotone fun i => (v (argsort v i)).toNat) :
    dcorUnsignedMerge argsort pixels pixels = .ok (.fin 0) :=
  (C120_unsigned_fails (Or.inl rfl) (by norm_num) (by norm_num) (by norm_num) argsort hs pixels (by decide +kernel)).2.2.2.1

/-- 300 grey levels are too many. -/
example (argsort : (Fin 300 → BitVec 8) → Equiv.Perm (Fin 300)) (x y : Fin 300 → BitVec 8) :
    dcovSqrUnsignedMerge argsort x y false = .error .overflowError :=
  (C120_too_long_partial argsort x y (by norm_num) false).1

/-! ### What is left of the values -/

/-- `n ^ 4` times the combination of the terms is a whole number, and right modulo `2 ^ w` if the terms are. -/
private theorem combine_mod (hn : 0 < n) {m1 m2 s1 s2 t1 t2 : ℤ} {a1 a2 b1 b2 : Fin n → ℤ} (hm : wrapW w m1 = wrapW w m2)
    (ha : ∀ i, wrapW w (a1 i) = wrapW w (a2 i)) (hb : ∀ i, wrapW w (b1 i) = wrapW w (b2 i)) (hs : wrapW w s1 = wrapW w s2)
    (ht : wrapW w t1 = wrapW w t2) :
    ∃ k : ℤ, (n : ℝ) ^ 4 * (((m1 : ℝ) / n ^ 2 - 2 * (∑ i, (a1 i : ℝ) * b1 i) / n ^ 3 + (s1 : ℝ) * t1 / n ^ 4)
      - ((m2 : ℝ) / n ^ 2 - 2 * (∑ i, (a2 i : ℝ) * b2 i) / n ^ 3 + (s2 : ℝ) * t2 / n ^ 4)) = 2 ^ w * k := by
  have h : wrapW w (n ^ 2 * m1 - 2 * n * (∑ i, a1 i * b1 i) + s1 * t1)
      = wrapW w (n ^ 2 * m2 - 2 * n * (∑ i, a2 i * b2 i) + s2 * t2) := by
    simp only [map_add, map_sub, map_mul, map_sum, hm, ha, hb, hs, ht]
  obtain ⟨k, hk⟩ := dvd_of_wrapW h
  refine ⟨k, ?_⟩
  have hk' := congrArg (Int.cast : ℤ → ℝ) hk
  push_cast at hk'
  rw [← hk']
  have h0 : (n : ℝ) ≠ 0 := by positivity
  field_simp

private theorem exact_eq (hn : 0 < n) (π : Equiv.Perm (Fin n)) (X Y : Fin n → ℕ) :
    Spec.dcovSqr (absDiff fun i => (X i : ℝ)) (absDiff fun i => (Y i : ℝ))
      = ((∑ i, ∑ j, |(X i : ℤ) - X j| * |(Y i : ℤ) - Y j| : ℤ) : ℝ) / n ^ 2
        - 2 * (∑ i, ((∑ j, |(X (π i) : ℤ) - X j| : ℤ) : ℝ) * ((∑ j, |(Y (π i) : ℤ) - Y j| : ℤ) : ℝ)) / n ^ 3
        + ((∑ i, ∑ j, |(X i : ℤ) - X j| : ℤ) : ℝ) * ((∑ i, ∑ j, |(Y i : ℤ) - Y j| : ℤ) : ℝ) / n ^ 4 := by
  rw [Spec.dcovSqr_eq_terms (absDiff _) (absDiff _) (absDiff_symm _) (absDiff_symm _) hn]
  rw [← Equiv.sum_comp π fun i => (∑ j, absDiff (fun i => (X i : ℝ)) i j) * ∑ j, absDiff (fun i => (Y i : ℝ)) i j]
  push_cast
  rfl

/-- C120, the part that holds: whatever the columns, with less than `2 ^ w` observations the squared distance covariance and the
squared distance variances are right modulo `2 ^ w`, in units of `1 / n ^ 4`. -/
theorem C120_remainder_partial (hw : w ≤ 64) (hn0 : 0 < n) (hn : n < 2 ^ w)
    (argsort : (Fin n → BitVec w) → Equiv.Perm (Fin n))
    (hs : ∀ v : Fin n → BitVec w, Monotone fun i => (v (argsort v i)).toNat) (x y : Fin n → BitVec w) :
    let a := absDiff fun i => ((x i).toNat : ℝ)
    let b := absDiff fun i => ((y i).toNat : ℝ)
    ∃ (s : Stats) (v vx vy : ℝ), dcovSqrUnsignedMerge argsort x y false = .ok (.fin v) ∧
      statsSqrUnsignedMerge argsort x y false = .ok s ∧ s.covarianceXY = .fin v ∧ s.varianceX = .fin vx ∧ s.varianceY = .fin vy ∧
      s.correlationXY = .fin (Spec.ratio v vx vy) ∧
      (∃ k : ℤ, n ^ 4 * (v - Spec.dcovSqr a b) = 2 ^ w * k) ∧ (∃ k : ℤ, n ^ 4 * (vx - Spec.dcovSqr a a) = 2 ^ w * k) ∧
      ∃ k : ℤ, n ^ 4 * (vy - Spec.dcovSqr b b) = 2 ^ w * k := by
  intro a b
  obtain ⟨c, π, hc, hm⟩ := mergesortTermsUnsigned_mod hw hn0 hn argsort hs x y
  have hP := congrArg CoreTerms.meanProd hm
  have hA := congrFun (congrArg CoreTerms.aAxis hm)
  have hB := congrFun (congrArg CoreTerms.bAxis hm)
  have hAt := congrArg CoreTerms.aTotal hm
  have hBt := congrArg CoreTerms.bTotal hm
  have va (z : Fin n → BitVec w) : varTerm (fun i => ((z i).toNat : ℝ))
      = ((∑ i, ∑ j, |((z i).toNat : ℤ) - (z j).toNat| * |((z i).toNat : ℤ) - (z j).toNat| : ℤ) : ℝ) := by
    rw [varTerm_eq hn0]
    push_cast
    rfl
  obtain ⟨k, hk⟩ := combine_mod hn0 hP hA hB hAt hBt
  obtain ⟨l, hl⟩ := combine_mod (w := w) hn0
    (m1 := ∑ i, ∑ j, |((x i).toNat : ℤ) - (x j).toNat| * |((x i).toNat : ℤ) - (x j).toNat|) rfl hA hA hAt hAt
  obtain ⟨r, hr⟩ := combine_mod (w := w) hn0
    (m1 := ∑ i, ∑ j, |((y i).toNat : ℤ) - (y j).toNat| * |((y i).toNat : ℤ) - (y j).toNat|) rfl hB hB hBt hBt
  have e := exact_eq hn0 π (fun i => (x i).toNat) (fun i => (y i).toNat)
  have ex := exact_eq hn0 π (fun i => (x i).toNat) (fun i => (x i).toNat)
  have ey := exact_eq hn0 π (fun i => (y i).toNat) (fun i => (y i).toNat)
  let V (m s t : ℤ) (a b : Fin n → ℤ) : ℝ := (m : ℝ) / n ^ 2 - 2 * (∑ i, (a i : ℝ) * b i) / n ^ 3 + (s : ℝ) * t / n ^ 4
  let D (z : Fin n → BitVec w) : ℤ := ∑ i, ∑ j, |((z i).toNat : ℤ) - (z j).toNat| * |((z i).toNat : ℤ) - (z j).toNat|
  let v := V c.meanProd c.aTotal c.bTotal c.aAxis c.bAxis
  let vx := V (D x) c.aTotal c.aTotal c.aAxis c.aAxis
  let vy := V (D y) c.bTotal c.bTotal c.bAxis c.bAxis
  refine ⟨⟨.fin v, .fin (Spec.ratio v vx vy), .fin vx, .fin vy⟩, v, vx, vy, ?_, ?_, rfl, rfl, rfl, rfl, ⟨k, ?_⟩, ⟨l, ?_⟩, ⟨r, ?_⟩⟩
  rotate_left 2
  · show (n : ℝ) ^ 4 * (_ - Spec.dcovSqr (absDiff fun i => (((x i).toNat : ℕ) : ℝ)) (absDiff fun i => (((y i).toNat : ℕ) : ℝ))) = _
    rw [e]
    exact hk
  · show (n : ℝ) ^ 4 * (_ - Spec.dcovSqr (absDiff fun i => (((x i).toNat : ℕ) : ℝ)) (absDiff fun i => (((x i).toNat : ℕ) : ℝ))) = _
    rw [ex]
    exact hl
  · show (n : ℝ) ^ 4 * (_ - Spec.dcovSqr (absDiff fun i => (((y i).toNat : ℕ) : ℝ)) (absDiff fun i => (((y i).toNat : ℕ) : ℝ))) = _
    rw [ey]
    exact hr
  · unfold dcovSqrUnsignedMerge
    rw [hc, Except.ok_bind', dcovFromTerms_biased _ _ _ hn0]
    rfl
  · unfold statsSqrUnsignedMerge
    rw [hc]
    simp only [Except.ok_bind']
    rw [dcovFromTerms_biased _ _ _ hn0, Except.ok_bind', dcovFromTerms_biased _ _ _ hn0, Except.ok_bind',
      dcovFromTerms_biased _ _ _ hn0, Except.ok_bind', va, va]
    simp only [Except.pure_eq]
    exact congrArg (fun t => Except.ok (⟨FP.fin _, t, FP.fin _, FP.fin _⟩ : Stats)) (ratio_eq _ _ _)

/-- 200 grey levels. -/
example (argsort : (Fin 200 → BitVec 8) → Equiv.Perm (Fin 200))
    (hs : ∀ v : Fin 200 → BitVec 8, Monotone fun i => (v (argsort v i)).toNat) (x y : Fin 200 → BitVec 8) :
    ∃ s, statsSqrUnsignedMerge argsort x y false = .ok s := by
  obtain ⟨s, -, -, -, -, e, -⟩ := C120_remainder_partial (by norm_num) (by norm_num) (by norm_num) argsort hs x y
  exact ⟨s, e⟩

/-! ### The products -/

/-- The grey levels 10, 20, 30. -/
def greys : Fin 3 → BitVec 8 := ![10, 20, 30]

/-- C120 fails: for the grey levels 10, 20, 30 not only the row sums are wrong: the sum of the products of the distances, which is
1200, is computed as 8368. The squared distance variance computed by `distance_covariance_sqr` is
`8368 / 9 - 2 (30² + 20² + (2⁶⁴ + 30)²) / 27 + (2⁶⁴ + 80)² / 81`. -/
theorem C120_products_fail (argsort : (Fin 3 → BitVec 8) → Equiv.Perm (Fin 3))
    (hs : ∀ v : Fin 3 → BitVec 8, Monotone fun i => (v (argsort v i)).toNat) :
    dcovSqrUnsignedMerge argsort greys greys false
      = .ok (.fin (8368 / 9 - 2 * (30 ^ 2 + 20 ^ 2 + (2 ^ 64 + 30) ^ 2) / 27 + (2 ^ 64 + 80) ^ 2 / 81)) ∧
    ∑ i, ∑ j, |((greys i).toNat : ℤ) - (greys j).toNat| * |((greys i).toNat : ℤ) - (greys j).toNat| = 1200 := by
  refine ⟨?_, by decide +kernel⟩
  have hm : StrictMono fun i => (greys i).toNat := by
    intro i j h
    revert i j
    decide +kernel
  have h1 : argsort greys = Equiv.refl _ := refl_of_sorted hm (hs greys)
  have ha : aijbijUnsigned greys greys = .ok 8368 := by decide +kernel
  have hr : rowSumsUnsigned greys = .ok ![30, 20, 2 ^ 64 + 30] := by
    unfold rowSumsUnsigned
    rw [dif_pos (by norm_num)]
    simp only
    congr 1
    have e : ∀ i : Fin 3, ((2 * (((i : ℕ) + 1 : ℕ) : BitVec 64) - ((3 : ℕ) : BitVec 64)) * (greys i).zeroExtend 64).toInt
        + (((cumsum fun i => (greys i).zeroExtend 64) ⟨3 - 1, by omega⟩ - 2 * (cumsum fun i => (greys i).zeroExtend 64) i).toNat : ℤ)
        = (![30, 20, 2 ^ 64 + 30] : Fin 3 → ℤ) i := by decide +kernel
    funext i
    have := congrArg (Int.cast : ℤ → ℝ) (e i)
    push_cast at this ⊢
    rw [this]
    fin_cases i <;> norm_num
  unfold dcovSqrUnsignedMerge mergesortTermsUnsigned
  simp only [h1, Equiv.refl_apply]
  rw [ha, Except.ok_bind', hr, Except.ok_bind', Except.ok_bind', Except.pure_eq, Except.ok_bind', dcovFromTerms_biased _ _ _ (by norm_num)]
  have hb : scatter (fun _ : Fin 3 => (0 : ℝ)) (⇑(Equiv.refl (Fin 3))) ![30, 20, 2 ^ 64 + 30] = ![30, 20, 2 ^ 64 + 30] :=
    funext fun i => scatter_perm _ _ _ _
  rw [hb]
  simp only [Fin.sum_univ_three]
  rw [show (![30, 20, 2 ^ 64 + 30] : Fin 3 → ℝ) 0 = 30 from rfl, show (![30, 20, 2 ^ 64 + 30] : Fin 3 → ℝ) 1 = 20 from rfl,
    show (![30, 20, 2 ^ 64 + 30] : Fin 3 → ℝ) 2 = 2 ^ 64 + 30 from rfl, show BitVec.toNat (8368 : BitVec 64) = 8368 from rfl]
  congr 2
  norm_num

example := C120_products_fail (fun v => Tuple.sort fun i => (v i).toNat) (fun v => Tuple.monotone_sort fun i => (v i).toNat)

end Dcor.Props

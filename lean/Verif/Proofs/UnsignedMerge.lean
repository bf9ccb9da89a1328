/-
The mergesort method on unsigned integers of `w` bits computes the right terms modulo `2 ^ w`.
-/
import Verif.Model.UnsignedMerge
import Verif.Proofs.UnsignedInt

namespace Dcor

open Finset

variable {n w : ℕ}

theorem isGe_toNat : IsGe (fun a b : BitVec w => decide (a.toNat ≥ b.toNat)) :=
  ⟨fun a b => by simpa using le_total b.toNat a.toNat, fun a b c h1 h2 => by
    simp only [decide_eq_true_eq] at *; exact le_trans h2 h1⟩

private theorem wrapW_of_wrap (hw : w ≤ 64) {a b : ℤ} (h : wrap a = wrap b) : wrapW w a = wrapW w b := by
  rw [← truncate_wrap hw, ← truncate_wrap hw, h]

private theorem wrap_toNat (v : BitVec 64) : wrap (v.toNat : ℤ) = v := wrapW_toNat v

theorem dvd_of_wrapW {a b : ℤ} (h : wrapW w a = wrapW w b) : ∃ k : ℤ, a - b = 2 ^ w * k := by
  have h1 : BitVec.ofInt w a = BitVec.ofInt w b := h
  have h2 := congrArg (fun v : BitVec w => (v.toNat : ℤ)) h1
  simp only [BitVec.toNat_ofInt] at h2
  have hp : (0 : ℤ) < ((2 ^ w : ℕ) : ℤ) := by positivity
  rw [Int.toNat_of_nonneg (Int.emod_nonneg _ hp.ne'), Int.toNat_of_nonneg (Int.emod_nonneg _ hp.ne')] at h2
  obtain ⟨k, hk⟩ := Int.ModEq.dvd (show b ≡ a [ZMOD ((2 ^ w : ℕ) : ℤ)] from h2.symm)
  exact ⟨k, by rw [hk]; push_cast; ring⟩

theorem aijbijUnsigned_mod (hw : w ≤ 64) (hn : n < 2 ^ w) (x y : Fin n → BitVec w) :
    ∃ v : BitVec 64, aijbijUnsigned x y = .ok v ∧ wrapW w (v.toNat : ℤ) = ∑ j, ∑ i,
      ((if i < j ∧ decide ((y i).toNat ≥ (y j).toNat) = false then 4 else 0) - 1) * ((x j - x i) * (y j - y i)) := by
  obtain ⟨u, e⟩ := computeAijbijTerm_eq isGe_toNat x y
  obtain ⟨π, u', e', _⟩ := computeWeightSums_eq isGe_toNat y (fun i => (![1, y i, x i, x i * y i] : Fin 4 → BitVec w))
  unfold computeAijbijTerm at e
  unfold aijbijUnsigned
  simp only at e ⊢
  rw [e', Except.ok_bind', Except.pure_eq, Except.ok.injEq, Prod.mk.injEq] at e
  rw [e', Except.ok_bind', if_neg (not_not.2 hn)]
  refine ⟨_, rfl, ?_⟩
  rw [← e.1]
  have key (t1 t2 t3 nxy : BitVec w) (t4 : Fin n → BitVec w) :
      4 * ((t1 - t2 - t3).zeroExtend 64 + ∑ i, (t4 i).zeroExtend 64) - 2 * (nxy.zeroExtend 64
        - (∑ i, ((∑ i, (x i).zeroExtend 64) * (y i).zeroExtend 64 + (∑ i, (y i).zeroExtend 64) * (x i).zeroExtend 64))
        + (∑ i, (x i).zeroExtend 64) * (∑ i, (y i).zeroExtend 64))
      = wrap (4 * (((t1 - t2 - t3).toNat : ℤ) + ∑ i, ((t4 i).toNat : ℤ)) - 2 * ((nxy.toNat : ℤ)
        - (∑ i, ((∑ i, ((x i).toNat : ℤ)) * ((y i).toNat : ℤ) + (∑ i, ((y i).toNat : ℤ)) * ((x i).toNat : ℤ)))
        + (∑ i, ((x i).toNat : ℤ)) * (∑ i, ((y i).toNat : ℤ)))) := by
    simp only [zeroExtend_eq hw, map_sub, map_add, map_mul, map_sum, map_ofNat]
  rw [key, wrapW_of_wrap hw (wrap_toNat _)]
  simp only [map_sub, map_add, map_mul, map_sum, map_ofNat, wrapW_toNat]

theorem rowSumsUnsigned_mod (hw : w ≤ 64) (hn : 0 < n) (x : Fin n → BitVec w) :
    ∃ r : Fin n → ℤ, rowSumsUnsigned x = .ok (fun i => (r i : ℝ)) ∧
      ∀ i, wrapW w (r i) = wrapW w (∑ q, sgnLt q i * (((x i).toNat : ℤ) - ((x q).toNat : ℤ))) := by
  have e := computeRowSums_eq hn fun i => (x i).zeroExtend 64
  unfold computeRowSums at e
  unfold rowSumsUnsigned
  rw [dif_pos hn] at e ⊢
  simp only at e ⊢
  have e' := Except.ok.inj e
  refine ⟨fun i => ((2 * (((i : ℕ) + 1 : ℕ) : BitVec 64) - (n : BitVec 64)) * (x i).zeroExtend 64).toInt
    + ((cumsum (fun i => (x i).zeroExtend 64) ⟨n - 1, by omega⟩ - 2 * cumsum (fun i => (x i).zeroExtend 64) i).toNat : ℤ), ?_, ?_⟩
  · congr 1
    funext i
    push_cast
    rfl
  · intro i
    refine wrapW_of_wrap hw ?_
    rw [map_add, wrap_toInt, wrap_toNat, map_sum]
    refine (congrFun e' i).trans (sum_congr rfl fun q _ => ?_)
    rw [map_mul, map_sgnLt, map_sub, zeroExtend_eq hw, zeroExtend_eq hw]

/-- All terms are right modulo `2 ^ w`. -/
theorem mergesortTermsUnsigned_mod (hw : w ≤ 64) (hn0 : 0 < n) (hn : n < 2 ^ w)
    (argsort : (Fin n → BitVec w) → Equiv.Perm (Fin n))
    (hs : ∀ v : Fin n → BitVec w, Monotone fun i => (v (argsort v i)).toNat) (x y : Fin n → BitVec w) :
    ∃ (c : CoreTerms ℤ n) (π : Equiv.Perm (Fin n)),
      mergesortTermsUnsigned argsort x y = .ok (c.map (Int.castRingHom ℝ)) ∧
      c.map (wrapW w) = (exactTerms π (fun i => ((x i).toNat : ℤ)) (fun i => ((y i).toNat : ℤ))).map (wrapW w) := by
  set σ := argsort x with hσ
  set τ := argsort (fun i => y (σ i)) with hτ
  obtain ⟨p, ep, hp⟩ := aijbijUnsigned_mod hw hn (fun i => x (σ i)) (fun i => y (σ i))
  obtain ⟨r, er, hr⟩ := rowSumsUnsigned_mod hw hn0 (fun i => x (σ i))
  obtain ⟨s, es, hs'⟩ := rowSumsUnsigned_mod hw hn0 (fun i => y (σ (τ i)))
  refine ⟨⟨p.toNat, r, ∑ i, r i, fun i => s (τ.symm i), ∑ i, s (τ.symm i)⟩, σ, ?_, ?_⟩
  · unfold mergesortTermsUnsigned
    simp only
    rw [← hσ, ep, Except.ok_bind', er, Except.ok_bind', ← hτ, es, Except.ok_bind', Except.pure_eq]
    have hb : scatter (fun _ : Fin n => (0 : ℝ)) (⇑τ) (fun i => (s i : ℝ)) = fun i => (s (τ.symm i) : ℝ) :=
      funext fun i => scatter_perm _ _ _ _
    rw [hb]
    simp [CoreTerms.map]
  · have m := mergeSpecTerms_map (wrapW w) (fun a b : ℤ => decide (b ≤ a))
      (fun a b : BitVec w => decide (a.toNat ≥ b.toNat)) σ τ (fun i => ((x i).toNat : ℤ)) (fun i => ((y i).toNat : ℤ))
      (fun i j => by simp only [wrapW_toNat, ge_iff_le, Int.ofNat_le])
    have q := mergeSpecTerms_eq σ τ (fun i => ((x i).toNat : ℤ)) (fun i => ((y i).toNat : ℤ))
      (fun i j h => Int.ofNat_le.2 (hs x h)) (fun i j h => Int.ofNat_le.2 (hs (fun i => y (σ i)) h))
    have ex : mergeSpecTerms (fun a b : ℤ => decide (b ≤ a)) σ τ (fun i => ((x i).toNat : ℤ)) (fun i => ((y i).toNat : ℤ))
        = exactTerms σ (fun i => ((x i).toNat : ℤ)) (fun i => ((y i).toNat : ℤ)) := q
    rw [← ex]
    have hA (i : Fin n) : wrapW w (r i) = wrapW w (∑ q, sgnLt q i * (((x (σ i)).toNat : ℤ) - ((x (σ q)).toNat : ℤ))) := hr i
    have hB (i : Fin n) : wrapW w (s (τ.symm i))
        = wrapW w (∑ q, sgnLt q (τ.symm i) * (((y (σ i)).toNat : ℤ) - ((y (σ (τ q))).toNat : ℤ))) := by
      rw [hs' (τ.symm i)]
      simp
    have hP := congrArg CoreTerms.meanProd m
    unfold CoreTerms.map
    refine CoreTerms.mk.injEq .. ▸ ⟨?_, funext hA, ?_, funext hB, ?_⟩
    · rw [hp]
      refine Eq.trans ?_ hP
      simp only [mergeSpecTerms, wrapW_toNat]
    · rw [map_sum]
      exact (sum_congr rfl fun i _ => hA i).trans (map_sum _ _ _).symm
    · rw [map_sum]
      exact (sum_congr rfl fun i _ => hB i).trans (map_sum _ _ _).symm

end Dcor

/-
Values of the pairwise distance functions on both computation paths.
-/
import Verif.Proofs.TermsOk

namespace Dcor

open Finset

variable {n l p : ℕ} {env : Env} {x y : Arr}

theorem rpow_spec (α : ℝ) (u v : Fin p → ℝ) :
    (if α = 1 then Real.sqrt (∑ c, (u c - v c) ^ 2) else (∑ c, (u c - v c) ^ 2) ^ (α / 2))
      = Spec.dist α u v := by
  split_ifs with h
  · subst h; simp [Spec.dist]
  · rw [Spec.dist_eq_rpow]

theorem naivePower_spec (dt : DType) (α : ℝ) (u v : Fin p → ℝ) :
    naivePower dt α (∑ c, (u c - v c) ^ 2) = Spec.dist α u v := by
  have hs : 0 ≤ ∑ c, (u c - v c) ^ 2 := sum_nonneg fun c _ => sq_nonneg _
  unfold naivePower
  rw [Spec.dist_eq_rpow]
  split_ifs with h1 h2
  · exact absurd h2 (not_lt.2 (Real.rpow_nonneg hs _))
  · rw [Real.sqrt_eq_rpow, ← Real.rpow_mul hs]
    congr 1
    ring
  · rfl

theorem canBe_iff (ns : Namespace) (dt : DType) :
    canBeNumpyDouble env ns dt = true ↔
      ns = .numpy ∧ env.compatIsNp = true ∧ dt.isObject = false := by
  unfold canBeNumpyDouble
  cases ns <;> cases env.compatIsNp <;> cases dt <;> simp [DType.isObject]

theorem commonNs_iff : commonNs x.ns y.ns = .numpy ↔ (x.ns = .numpy ∨ y.ns = .numpy) := by
  unfold commonNs
  cases x.ns <;> cases y.ns <;> simp

theorem cdist_scipy (ns : Namespace) (dx dy : DType) (X : Fin n → Fin p → ℝ)
    (Y : Fin l → Fin p → ℝ) (α : ℝ)
    (h : (canBeNumpyDouble env ns dx && canBeNumpyDouble env ns dy) = true) :
    cdist env ns ns dx dy ⟨n, p, X⟩ ⟨l, p, Y⟩ α
      = .ok ⟨n, l, fun i j => Spec.dist α (X i) (Y j)⟩ := by
  unfold cdist
  rw [if_pos h]
  unfold cdistScipy
  simp only [dite_true, Except.ok_bind', Except.pure_eq, Fin.cast_refl, id]
  congr 2
  funext i j
  exact rpow_spec α (X i) (Y j)

theorem cdist_naive (ns : Namespace) (dx dy : DType) (X : Fin n → Fin p → ℝ)
    (Y : Fin l → Fin p → ℝ) (α : ℝ)
    (h : ¬ (canBeNumpyDouble env ns dx && canBeNumpyDouble env ns dy) = true)
    (hd : (dx = .decimal ∨ dy = .decimal) → ∃ k : ℤ, α = k) (hcl : decimalClash dx dy = false) :
    cdist env ns ns dx dy ⟨n, p, X⟩ ⟨l, p, Y⟩ α
      = .ok ⟨l, n, fun k i => Spec.dist α (X i) (Y k)⟩ := by
  unfold cdist
  rw [if_neg h]
  unfold cdistNaive
  simp only [dite_true, Fin.cast_refl, id]
  have hf : ¬ naivePowerFails (joinDType dx dy) α := by
    rintro ⟨hf, hk⟩
    apply hk
    apply hd
    unfold joinDType at hf
    split_ifs at hf
    assumption
  simp only [hf, if_false, Except.pure_eq, Except.ok_bind', naivePower_spec, hcl, Bool.false_and,
    Bool.false_eq_true]

theorem decimalClash_false {dx dy : DType} (h : dx = .decimal ↔ dy = .decimal) :
    decimalClash dx dy = false := by
  cases dx <;> cases dy <;> simp_all [decimalClash]

end Dcor

/-
C85: observations that are not finite are not ignored.
-/
import Verif.Proofs.NonFinite

namespace Dcor.Props

open Dcor F64

variable {sqrt : F64 → F64} {sum : List F64 → F64} {dot : List (F64 × F64) → F64} {n m p q : ℕ}

/-! ### Distance covariance, correlation and variances -/

/-- C85, naive method: if some coordinate of `x` is NaN or infinite, the squared covariance, correlation and variance of
`x` are NaN, whatever the order of summation. -/
theorem C85_naive_left (h : IsIeee64 sqrt sum dot) (bc : Bool) (x : Fin n → Fin p → F64) (y : Fin n → Fin q → F64)
    (i : Fin n) (k : Fin p) (hx : ¬ (x i k).Finite) :
    ((ieee64 sqrt sum dot).naiveStats bc x y).cov = nan ∧ ((ieee64 sqrt sum dot).naiveStats bc x y).corr = nan ∧
      ((ieee64 sqrt sum dot).naiveStats bc x y).varX = nan :=
  stats_nan_left h bc (axisSum_nan h hx)

/-- C85, naive method, second sample. -/
theorem C85_naive_right (h : IsIeee64 sqrt sum dot) (bc : Bool) (x : Fin n → Fin p → F64) (y : Fin n → Fin q → F64)
    (i : Fin n) (k : Fin q) (hy : ¬ (y i k).Finite) :
    ((ieee64 sqrt sum dot).naiveStats bc x y).cov = nan ∧ ((ieee64 sqrt sum dot).naiveStats bc x y).corr = nan ∧
      ((ieee64 sqrt sum dot).naiveStats bc x y).varY = nan :=
  stats_nan_right h bc (axisSum_nan h hy)

/-- C85, AVL method: whatever permutation `argsort` returns, compiled or not. -/
theorem C85_avl_left (h : IsIeee64 sqrt sum dot) (bc compiled : Bool) (argsort : (Fin n → F64) → Equiv.Perm (Fin n))
    (x y : Fin n → F64) (hn : 3 < n) (i : Fin n) (hx : ¬ (x i).Finite) :
    ∃ r, (ieee64 sqrt sum dot).avlStats bc compiled argsort x y = .ok r ∧ r.cov = nan ∧ r.corr = nan ∧ r.varX = nan := by
  obtain ⟨D, e⟩ := avlTermsWith_safe (ieee64 sqrt sum dot) (Nat.clog 2 n) (Nat.le_pow_clog (by norm_num) n) compiled
    argsort x y hn
  unfold Arith.avlStats Arith.avlTerms
  rw [e]
  exact ⟨_, rfl, stats_nan_left h bc (axisShape_nan _ hx)⟩

/-- C85, AVL method, second sample. -/
theorem C85_avl_right (h : IsIeee64 sqrt sum dot) (bc compiled : Bool) (argsort : (Fin n → F64) → Equiv.Perm (Fin n))
    (x y : Fin n → F64) (hn : 3 < n) (i : Fin n) (hy : ¬ (y i).Finite) :
    ∃ r, (ieee64 sqrt sum dot).avlStats bc compiled argsort x y = .ok r ∧ r.cov = nan ∧ r.corr = nan ∧ r.varY = nan := by
  obtain ⟨D, e⟩ := avlTermsWith_safe (ieee64 sqrt sum dot) (Nat.clog 2 n) (Nat.le_pow_clog (by norm_num) n) compiled
    argsort x y hn
  unfold Arith.avlStats Arith.avlTerms
  rw [e]
  exact ⟨_, rfl, stats_nan_right h bc (axisShape_nan _ hy)⟩

/-- C85, mergesort method: whatever permutation `argsort` returns and however NaN compares. -/
theorem C85_mergesort_left (h : IsIeee64 sqrt sum dot) (bc : Bool) (ge : F64 → F64 → Bool)
    (argsort : (Fin n → F64) → Equiv.Perm (Fin n)) (x y : Fin n → F64) (i : Fin n) (hx : ¬ (x i).Finite) :
    ∃ r, (ieee64 sqrt sum dot).mergesortStats bc ge argsort x y = .ok r ∧ r.cov = nan ∧ r.corr = nan ∧ r.varX = nan := by
  obtain ⟨t, a, b, e, ea, eb, ha, hb⟩ := mergesortTerms_rows (ieee64 sqrt sum dot) ge argsort x y i.pos
  unfold Arith.mergesortStats
  rw [e]
  refine ⟨_, rfl, stats_nan_left h bc (i := (argsort x).symm i) ?_⟩
  show t.aAxis _ = nan
  rw [ha]
  exact rowSums_nan (by simpa using hx) ea

/-- C85, mergesort method, second sample. -/
theorem C85_mergesort_right (h : IsIeee64 sqrt sum dot) (bc : Bool) (ge : F64 → F64 → Bool)
    (argsort : (Fin n → F64) → Equiv.Perm (Fin n)) (x y : Fin n → F64) (i : Fin n) (hy : ¬ (y i).Finite) :
    ∃ r, (ieee64 sqrt sum dot).mergesortStats bc ge argsort x y = .ok r ∧ r.cov = nan ∧ r.corr = nan ∧ r.varY = nan := by
  obtain ⟨t, a, b, e, ea, eb, ha, hb⟩ := mergesortTerms_rows (ieee64 sqrt sum dot) ge argsort x y i.pos
  unfold Arith.mergesortStats
  rw [e]
  refine ⟨_, rfl, stats_nan_right h bc (i := (argsort x).symm i) ?_⟩
  show t.bAxis _ = nan
  have := hb ((argsort fun i => y (argsort x i)).symm ((argsort x).symm i))
  rw [Equiv.apply_symm_apply] at this
  rw [this]
  exact rowSums_nan (by simpa using hy) eb

/-- C85: the square root that `distance_covariance`, `distance_correlation` and `distance_stats` take of the squared
values keeps NaN. -/
theorem C85_root (h : IsIeee64 sqrt sum dot) : (ieee64 sqrt sum dot).sqrtClip nan = nan := sqrtClip_nan h

/-! ### Energy distance -/

/-- C85, energy distance: if some coordinate of an observation of either sample is NaN or infinite, both estimators are
NaN. -/
theorem C85_energy (h : IsIeee64 sqrt sum dot) (s : EstStat) (x : Fin n → Fin p → F64) (y : Fin m → Fin p → F64)
    (hn : 0 < n) (hm : 0 < m) (k : Fin p) (hx : (∃ i, ¬ (x i k).Finite) ∨ ∃ i, ¬ (y i k).Finite) :
    (ieee64 sqrt sum dot).energyDistance s x y = nan := by
  have hb : Top ((ieee64 sqrt sum dot).imul 2 ((ieee64 sqrt sum dot).mean
      (Arith.flatAll ((ieee64 sqrt sum dot).cdist x y)))) :=
    (between_top h hm hn hx).mul (round_nn (by norm_num))
  have e : (ieee64 sqrt sum dot).energyDistance s x y = F64.sub (F64.sub _ _) _ := rfl
  rw [e]
  rcases hx with ⟨i, hi⟩ | ⟨j, hj⟩
  · exact (congrArg (F64.sub · _) (Top.sub hb (within_top h s hi))).trans (nan_sub _)
  · exact Top.sub (hb.sub_cases _) (within_top h s hj)

/-- C85, statistic of the energy test. -/
theorem C85_energy_test (h : IsIeee64 sqrt sum dot) (s : EstStat) (x : Fin n → Fin p → F64) (y : Fin m → Fin p → F64)
    (hn : 0 < n) (hm : 0 < m) (k : Fin p) (hx : (∃ i, ¬ (x i k).Finite) ∨ ∃ i, ¬ (y i k).Finite) :
    (ieee64 sqrt sum dot).energyTestStatistic s x y = nan := by
  unfold Arith.energyTestStatistic
  rw [C85_energy h s x y hn hm k hx]
  exact mul_nan _

/-! ### Cases that meet the hypotheses -/

/-- Four observations, one of them NaN and one infinite. -/
def badX : Fin 4 → F64 := ![fin 1, nan, fin 3, inf true]

/-- Four finite observations. -/
def goodY : Fin 4 → F64 := ![fin 4, fin 2, fin 1, fin 8]

example : ¬ (badX 1).Finite ∧ ¬ (badX 3).Finite ∧ ∀ i, (goodY i).Finite := by
  refine ⟨id, id, fun i => ?_⟩
  fin_cases i <;> trivial

example : ((ieee64 sqrtSeq sumSeq dotSeq).naiveStats true (fun i (_ : Fin 1) => badX i) (fun i (_ : Fin 1) => goodY i)).corr
    = nan :=
  (C85_naive_left ieee64_seq true _ _ 3 0 id).2.1

example : ∃ r, (ieee64 sqrtSeq sumSeq dotSeq).avlStats false true (fun _ => Equiv.swap 0 2) goodY badX = .ok r ∧
    r.cov = nan ∧ r.corr = nan ∧ r.varY = nan :=
  C85_avl_right ieee64_seq false true _ _ _ (by norm_num) 3 id

example : ∃ r, (ieee64 sqrtSeq sumSeq dotSeq).mergesortStats false (fun a b => !F64.lt a b) (fun _ => Equiv.swap 0 2) badX
    goodY = .ok r ∧ r.cov = nan ∧ r.corr = nan ∧ r.varX = nan :=
  C85_mergesort_left ieee64_seq false _ _ _ _ 3 id

example : (ieee64 sqrtSeq sumSeq dotSeq).energyDistance .u (fun i (_ : Fin 1) => goodY i) (fun (_ : Fin 1) _ => inf false)
    = nan :=
  C85_energy ieee64_seq .u _ _ (by norm_num) (by norm_num) 0 (Or.inr ⟨0, id⟩)

/-- The variance of the other sample is not affected. -/
example : ((ieee64 sqrtSeq sumSeq dotSeq).naiveStats false (fun i (_ : Fin 1) => badX i)
    (fun i (_ : Fin 1) => goodY i)).varY = fin (305 / 64) := by
  decide +kernel

end Dcor.Props

/-
U-centring as an orthogonal projection on a space of dimension `n (n - 3) / 2`.
-/
import Mathlib.Analysis.InnerProductSpace.PiL2
import Verif.Proofs.SpecAlg
import Verif.Proofs.PermVariance
import Verif.Proofs.StudentLaw

namespace Dcor.UProjection

open Finset Spec
open scoped RealInnerProductSpace

variable {n : ℕ}

/-- The pairs of different observations. -/
abbrev Pairs (n : ℕ) : Type := {q : Fin n × Fin n // q.1 < q.2}

theorem sum_pairs_two (F : Fin n → Fin n → ℝ) (hF : Symm F) (h0 : ∀ i, F i i = 0) :
    ∑ i, ∑ j, F i j = 2 * ∑ q : Pairs n, F q.1.1 q.1.2 := by
  rw [← Finset.sum_product', Finset.univ_product_univ]
  have h1 : ∑ q : Pairs n, F q.1.1 q.1.2 = ∑ q ∈ (univ : Finset (Fin n × Fin n)).filter (fun q => q.1 < q.2), F q.1 q.2 := by
    rw [Finset.sum_subtype _ (p := fun q : Fin n × Fin n => q.1 < q.2) (by simp)]
  have h2 : ∑ q ∈ (univ : Finset (Fin n × Fin n)).filter (fun q => ¬ q.1 < q.2), F q.1 q.2
      = ∑ q ∈ (univ : Finset (Fin n × Fin n)).filter (fun q => q.1 < q.2), F q.1 q.2 := by
    rw [← Finset.sum_filter_add_sum_filter_not ((univ : Finset (Fin n × Fin n)).filter fun q => ¬ q.1 < q.2)
      (fun q => q.1 = q.2)]
    have h3 : ∑ q ∈ ((univ : Finset (Fin n × Fin n)).filter fun q => ¬ q.1 < q.2) with q.1 = q.2, F q.1 q.2 = 0 := by
      refine Finset.sum_eq_zero fun q hq => ?_
      rw [(mem_filter.1 hq).2, h0]
    rw [h3, zero_add]
    · refine Finset.sum_nbij' (fun q => (q.2, q.1)) (fun q => (q.2, q.1)) ?_ ?_ ?_ ?_ ?_
      · intro q hq
        simp only [mem_filter, mem_univ, true_and, not_lt] at hq ⊢
        exact lt_of_le_of_ne hq.1 (Ne.symm hq.2)
      · intro q hq
        simp only [mem_filter, mem_univ, true_and, not_lt] at hq ⊢
        exact ⟨hq.le, hq.ne'⟩
      · simp
      · simp
      · intro q _
        exact hF _ _
  rw [h1, ← Finset.sum_filter_add_sum_filter_not univ (fun q : Fin n × Fin n => q.1 < q.2), h2, two_mul]

theorem card_pairs (n : ℕ) : (Fintype.card (Pairs n) : ℝ) = n * (n - 1) / 2 := by
  have h := sum_pairs_two (n := n) (fun i j => if i = j then 0 else 1) (fun i j => by simp [eq_comm]) (by simp)
  have h1 : ∑ q : Pairs n, (if q.1.1 = q.1.2 then (0 : ℝ) else 1) = Fintype.card (Pairs n) := by
    rw [Finset.sum_congr rfl fun q _ => if_neg q.2.ne]
    simp
  have h2 (i : Fin n) : ∑ j, (if i = j then (0 : ℝ) else 1) = n - 1 := by
    have : ∀ j, (if i = j then (0 : ℝ) else 1) = 1 - if i = j then 1 else 0 := fun j => by split <;> simp
    simp only [this, Finset.sum_sub_distrib]
    simp
  rw [h1] at h
  simp only [h2, Finset.sum_const, card_univ, Fintype.card_fin, nsmul_eq_mul] at h
  linarith

/-- The Euclidean space of the functions of pairs. -/
abbrev PairSpace (n : ℕ) : Type := EuclideanSpace ℝ (Pairs n)

/-- A function of pairs as a symmetric matrix. -/
noncomputable def mat (g : PairSpace n) : RMat n := fun i j =>
  if h : i < j then g ⟨(i, j), h⟩ else if h : j < i then g ⟨(j, i), h⟩ else 0

/-- A symmetric matrix as a function of pairs. -/
noncomputable def vec (a : RMat n) : PairSpace n := WithLp.toLp 2 fun q => a q.1.1 q.1.2

theorem mat_symm (g : PairSpace n) : Symm (mat g) := by
  intro i j
  unfold mat
  rcases lt_trichotomy i j with h | h | h
  · rw [dif_pos h, dif_neg h.not_gt, dif_pos h]
  · subst h
    rfl
  · rw [dif_pos h, dif_neg h.not_gt, dif_pos h]

theorem mat_diag (g : PairSpace n) (i : Fin n) : mat g i i = 0 := by simp [mat]

theorem mat_pair (g : PairSpace n) (q : Pairs n) : mat g q.1.1 q.1.2 = g q := by
  unfold mat
  rw [dif_pos q.2]

theorem mat_vec (a : RMat n) (ha : Symm a) (h0 : ∀ i, a i i = 0) : mat (vec a) = a := by
  funext i j
  unfold mat vec
  rcases lt_trichotomy i j with h | h | h
  · rw [dif_pos h]
  · subst h
    simp [h0]
  · rw [dif_neg h.not_gt, dif_pos h]
    exact ha _ _

theorem inner_vec (g : PairSpace n) (a : RMat n) : ⟪g, vec a⟫ = ∑ q : Pairs n, g q * a q.1.1 q.1.2 := by
  rw [PiLp.inner_apply]
  exact Finset.sum_congr rfl fun q _ => by simp [vec, mul_comm]

theorem inner_vec_mat (g : PairSpace n) (a : RMat n) (ha : Symm a) (h0 : ∀ i, a i i = 0) :
    ∑ i, ∑ j, mat g i j * a i j = 2 * ⟪g, vec a⟫ := by
  rw [sum_pairs_two (fun i j => mat g i j * a i j) (fun i j => by beta_reduce; rw [mat_symm g i j, ha i j])
    (fun i => by rw [h0, mul_zero]), inner_vec]
  simp only [mat_pair]

/-- The row sums. -/
noncomputable def rows (n : ℕ) : PairSpace n →ₗ[ℝ] (Fin n → ℝ) where
  toFun g i := ∑ j, mat g i j
  map_add' g h := by
    funext i
    simp only [Pi.add_apply, ← Finset.sum_add_distrib]
    refine Finset.sum_congr rfl fun j _ => ?_
    unfold mat
    split_ifs <;> simp
  map_smul' t g := by
    funext i
    simp only [Pi.smul_apply, smul_eq_mul, RingHom.id_apply, Finset.mul_sum]
    refine Finset.sum_congr rfl fun j _ => ?_
    unfold mat
    split_ifs <;> simp

theorem rows_apply (g : PairSpace n) (i : Fin n) : rows n g i = ∑ j, mat g i j := rfl

theorem rows_surjective (hn : 2 < n) : Function.Surjective (rows n) := by
  have hn2 : (2 : ℝ) < n := by exact_mod_cast hn
  intro r
  obtain ⟨F, hF⟩ : ∃ F : ℝ, F = (∑ i, r i) / (2 * n - 2) := ⟨_, rfl⟩
  obtain ⟨f, hf⟩ : ∃ f : Fin n → ℝ, f = fun i => (r i - F) / (n - 2) := ⟨_, rfl⟩
  have hsum : ∑ i, f i = F := by
    rw [hf, ← Finset.sum_div, Finset.sum_sub_distrib]
    simp only [Finset.sum_const, card_univ, Fintype.card_fin, nsmul_eq_mul]
    have : ∑ i, r i = F * (2 * n - 2) := by
      rw [hF, div_mul_cancel₀]
      linarith
    rw [this, div_eq_iff (by linarith)]
    ring
  refine ⟨vec fun i j => if i = j then 0 else f i + f j, ?_⟩
  funext i
  rw [rows_apply, mat_vec _ (fun i j => by simp only [eq_comm, add_comm]) (by simp)]
  have h1 (j : Fin n) : (if i = j then (0 : ℝ) else f i + f j) = (f i + f j) - if i = j then f i + f j else 0 := by
    split <;> simp
  simp only [h1, Finset.sum_sub_distrib, Finset.sum_add_distrib, Finset.sum_ite_eq, mem_univ, if_true, hsum]
  simp only [Finset.sum_const, card_univ, Fintype.card_fin, nsmul_eq_mul]
  have h2 : f i * (n - 2) = r i - F := by
    rw [hf]
    exact div_mul_cancel₀ _ (by linarith)
  linarith

/-- The functions of pairs with vanishing row sums. -/
noncomputable def H (n : ℕ) : Submodule ℝ (PairSpace n) := LinearMap.ker (rows n)

theorem mem_H (g : PairSpace n) : g ∈ H n ↔ ∀ i, ∑ j, mat g i j = 0 := by
  unfold H
  rw [LinearMap.mem_ker, funext_iff]
  rfl

theorem finrank_H (hn : 3 < n) : Module.finrank ℝ (H n) = n * (n - 3) / 2 - 1 + 1 := by
  have h := LinearMap.finrank_range_add_finrank_ker (rows n)
  rw [LinearMap.range_eq_top.2 (rows_surjective (by omega)), finrank_top] at h
  simp only [Module.finrank_fin_fun, finrank_euclideanSpace] at h
  have hc := card_pairs n
  have h1 : 2 * Fintype.card (Pairs n) = n * (n - 1) := by
    have h2 : (2 : ℝ) * Fintype.card (Pairs n) = n * (n - 1 : ℕ) := by
      rw [hc, Nat.cast_sub (by omega)]
      push_cast
      ring
    exact_mod_cast h2
  obtain ⟨k, rfl⟩ : ∃ k, n = k + 4 := ⟨n - 4, by omega⟩
  have e1 : (k + 4) * (k + 4 - 1) = (k + 4) * (k + 1) + 2 * (k + 4) := by
    rw [show k + 4 - 1 = k + 3 by omega]
    ring
  have e2 : k + 4 - 3 = k + 1 := by omega
  change k + 4 + Module.finrank ℝ (H (k + 4)) = _ at h
  rw [e1] at h1
  rw [e2]
  have e3 : 4 ≤ (k + 4) * (k + 1) := by nlinarith
  omega

theorem vec_uCentre_mem (hn : 2 < n) {a : RMat n} (ha : Symm a) (h0 : ∀ i, a i i = 0) : vec (uCentre a) ∈ H n := by
  rw [mem_H, mat_vec _ (uCentre_symm a ha) (uCentre_diag a)]
  exact fun i => sum_uCentre_row a ha h0 hn i

/-- Functions with vanishing row sums ignore sums of functions of one observation. -/
theorem inner_additive {g : PairSpace n} (hg : g ∈ H n) (f : Fin n → ℝ) :
    ∑ q : Pairs n, g q * (f q.1.1 + f q.1.2) = 0 := by
  rw [mem_H] at hg
  have h1 := sum_pairs_two (fun i j => mat g i j * (f i + f j)) (fun i j => by beta_reduce; rw [mat_symm g i j, add_comm])
    (fun i => by rw [mat_diag, zero_mul])
  simp only [mat_pair] at h1
  have h2 : ∑ i, ∑ j, mat g i j * (f i + f j) = 0 := by
    simp only [mul_add, Finset.sum_add_distrib]
    rw [Finset.sum_comm (f := fun i j => mat g i j * f j)]
    simp only [← Finset.sum_mul, hg, zero_mul, Finset.sum_const_zero, zero_add]
    refine Finset.sum_eq_zero fun i _ => ?_
    rw [Finset.sum_congr rfl fun j _ => mat_symm g j i, hg, zero_mul]
  linarith

theorem inner_uCentre {g : PairSpace n} (hg : g ∈ H n) {a : RMat n} (ha : Symm a) :
    ⟪g, vec (uCentre a)⟫ = ⟪g, vec a⟫ := by
  rw [inner_vec, inner_vec, ← sub_eq_zero, ← Finset.sum_sub_distrib]
  obtain ⟨f, hf⟩ : ∃ f : Fin n → ℝ, f = fun i => - (∑ k, a i k) / (n - 2)
    + (∑ k, ∑ l, a k l) / ((n - 1) * (n - 2)) / 2 := ⟨_, rfl⟩
  rw [← inner_additive hg f]
  refine Finset.sum_congr rfl fun q _ => ?_
  unfold uCentre
  rw [if_neg q.2.ne, Finset.sum_congr rfl fun k _ => ha k q.1.2, hf]
  ring

theorem uDcovSqr_inner {a b : RMat n} (ha : Symm a) (hb : Symm b) :
    uDcovSqr a b = ⟪vec (uCentre a), vec (uCentre b)⟫ * (2 / (n * (n - 3))) := by
  rw [uDcovSqr_eq_uIp, uIp]
  have h := inner_vec_mat (vec (uCentre a)) (uCentre b) (uCentre_symm b hb) (uCentre_diag b)
  rw [mat_vec _ (uCentre_symm a ha) (uCentre_diag a)] at h
  rw [h]
  ring

/-- The coordinates of a matrix. -/
noncomputable def coords {d : ℕ} (β : Fin d → Pairs n → ℝ) (g : RMat n) : Fin d → ℝ :=
  fun a => ∑ q, β a q * g q.1.1 q.1.2

/-- Orthonormal coordinates of the U-centred matrices. -/
theorem exists_basis (hn : 3 < n) :
    ∃ β : Fin (n * (n - 3) / 2 - 1 + 1) → Pairs n → ℝ,
      (∀ a c, ∑ q, β a q * β c q = if a = c then 1 else 0) ∧
      (∀ a (f : Fin n → ℝ), ∑ q : Pairs n, β a q * (f q.1.1 + f q.1.2) = 0) ∧
      ∀ g b : RMat n, Symm g → (∀ i, g i i = 0) → Symm b → (∀ i, b i i = 0) →
        uDcovSqr g b = (∑ a, coords β g a * coords β b a) * (2 / (n * (n - 3))) := by
  obtain ⟨B, -⟩ : ∃ B : OrthonormalBasis (Fin (n * (n - 3) / 2 - 1 + 1)) ℝ (H n), True :=
    ⟨(stdOrthonormalBasis ℝ (H n)).reindex (finCongr (finrank_H hn)), trivial⟩
  refine ⟨fun a => (B a : PairSpace n), fun a c => ?_, fun a f => inner_additive (B a).2 f, fun g b hg hg0 hb hb0 => ?_⟩
  · have h := orthonormal_iff_ite.1 B.orthonormal a c
    rw [← h, Submodule.coe_inner, PiLp.inner_apply]
    exact Finset.sum_congr rfl fun q _ => by simp [mul_comm]
  · obtain ⟨u, hu⟩ : ∃ u : H n, u = ⟨vec (uCentre g), vec_uCentre_mem (by omega) hg hg0⟩ := ⟨_, rfl⟩
    obtain ⟨e, he⟩ : ∃ e : H n, e = ⟨vec (uCentre b), vec_uCentre_mem (by omega) hb hb0⟩ := ⟨_, rfl⟩
    have hc (a) : coords (fun a => (B a : PairSpace n)) g a = ⟪B a, u⟫ := by
      rw [Submodule.coe_inner, hu, inner_uCentre (B a).2 hg, inner_vec]
      rfl
    have hd (a) : coords (fun a => (B a : PairSpace n)) b a = ⟪B a, e⟫ := by
      rw [Submodule.coe_inner, he, inner_uCentre (B a).2 hb, inner_vec]
      rfl
    have h := B.sum_inner_mul_inner u e
    have h1 : ⟪u, e⟫ = ⟪vec (uCentre g), vec (uCentre b)⟫ := by
      rw [he, hu]
      rfl
    rw [uDcovSqr_inner hg hb, ← h1, ← h]
    congr 1
    refine Finset.sum_congr rfl fun a _ => ?_
    rw [hc, hd, real_inner_comm u]

/-- The correlation as the share of a direction. -/
theorem ratio_coords (hn : 3 < n) {d : ℕ} {β : Fin d → Pairs n → ℝ} {g b : RMat n}
    (hgb : uDcovSqr g b = (∑ a, coords β g a * coords β b a) * (2 / (n * (n - 3))))
    (hgg : uDcovSqr g g = (∑ a, coords β g a * coords β g a) * (2 / (n * (n - 3))))
    (hbb : uDcovSqr b b = (∑ a, coords β b a * coords β b a) * (2 / (n * (n - 3)))) :
    uDcorSqr g b = (∑ a, coords β g a * coords β b a) / (StudentLaw.len (coords β g) * StudentLaw.len (coords β b)) := by
  have hn3 : (0 : ℝ) < 2 / (n * (n - 3)) := div_pos two_pos (uIp_denom_pos hn)
  have h (u : Fin d → ℝ) : ∑ a, u a * u a = StudentLaw.len u ^ 2 := by
    rw [StudentLaw.len_sq]
    exact Finset.sum_congr rfl fun a _ => by ring
  rw [h] at hgg hbb
  have h1 := StudentLaw.len_nonneg (coords β g)
  have h2 := StudentLaw.len_nonneg (coords β b)
  rw [uDcorSqr, ratio, hgb, hgg, hbb]
  generalize (2 / ((n : ℝ) * (n - 3))) = κ at hn3
  generalize StudentLaw.len (coords β g) = l at h1 ⊢
  generalize StudentLaw.len (coords β b) = l' at h2 ⊢
  rcases h1.eq_or_lt with rfl | h1
  · simp
  rcases h2.eq_or_lt with rfl | h2
  · simp
  rw [if_neg (by positivity), abs_of_pos (by positivity), show l ^ 2 * κ * (l' ^ 2 * κ) = (l * l' * κ) ^ 2 by ring,
    Real.sqrt_sq (by positivity)]
  field_simp

end Dcor.UProjection

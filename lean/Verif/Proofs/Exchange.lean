/-
Exchangeability: how often a permutation p-value is small when all relabellings are equally likely.
-/
import Verif.Proofs.Hypothesis
import Verif.Spec.Uniform
import Mathlib.Data.Fintype.Pi
import Mathlib.Algebra.Order.BigOperators.Group.Finset

namespace Dcor

open Finset

/-! ### Ranks -/

section Ranks

variable {m : ℕ} (v : Fin m → ℝ)

/-- At least `k` of the values have fewer than `k` values strictly above them. -/
theorem le_card_few_above {k : ℕ} (hk : k ≤ m) :
    k ≤ (univ.filter fun j => (univ.filter fun i => v j < v i).card < k).card := by
  by_cases h : ∃ j, ¬ (univ.filter fun i => v j < v i).card < k
  · obtain ⟨j, hj, hmax⟩ := exists_max_image
      (univ.filter fun j => ¬ (univ.filter fun i => v j < v i).card < k) v
      (by obtain ⟨j, hj⟩ := h; exact ⟨j, mem_filter.2 ⟨mem_univ _, hj⟩⟩)
    rw [mem_filter] at hj
    refine (not_lt.1 hj.2).trans (card_le_card fun i hi => ?_)
    rw [mem_filter] at hi ⊢
    refine ⟨mem_univ _, ?_⟩
    by_contra hc
    exact absurd hi.2 (not_lt.2 (hmax i (mem_filter.2 ⟨mem_univ _, hc⟩)))
  · push Not at h
    rw [filter_true_of_mem fun j _ => h j, card_univ, Fintype.card_fin]
    exact hk

/-- At most `k` of the values have at most `k` values (including themselves) not below them. -/
theorem card_few_not_below_le (k : ℕ) :
    (univ.filter fun j => (univ.filter fun i => v j ≤ v i).card ≤ k).card ≤ k := by
  rcases (univ.filter fun j => (univ.filter fun i => v j ≤ v i).card ≤ k).eq_empty_or_nonempty
    with h | h
  · rw [h]
    simp
  · obtain ⟨j, hj, hmin⟩ := exists_min_image _ v h
    rw [mem_filter] at hj
    refine le_trans (card_le_card fun i hi => ?_) hj.2
    rw [mem_filter]
    exact ⟨mem_univ _, hmin i hi⟩

end Ranks

/-! ### Counting -/

section Count

variable {G : Type} [Fintype G] [DecidableEq G] {B : ℕ} (t : G → ℝ)

/-- Every position is as likely as the first one to satisfy a condition on ranks. -/
theorem sum_card_eq (P : ℕ → Prop) [DecidablePred P] (r : ℝ → ℝ → Prop) [DecidableRel r] :
    ∑ τ : Fin (B + 1) → G,
        (univ.filter fun j => P (univ.filter fun i => r (t (τ j)) (t (τ i))).card).card
      = (B + 1) * (univ.filter fun τ : Fin (B + 1) → G =>
        P (univ.filter fun i => r (t (τ 0)) (t (τ i))).card).card := by
  simp only [card_filter]
  rw [sum_comm]
  have h : ∀ j : Fin (B + 1), ∑ τ : Fin (B + 1) → G,
      (if P (∑ i, if r (t (τ j)) (t (τ i)) then 1 else 0) then 1 else 0)
      = ∑ τ : Fin (B + 1) → G,
        (if P (∑ i, if r (t (τ 0)) (t (τ i)) then 1 else 0) then 1 else 0) := by
    intro j
    refine Fintype.sum_equiv (Equiv.arrowCongr (Equiv.swap 0 j) (Equiv.refl G)) _ _ fun τ => ?_
    have h0 : (Equiv.arrowCongr (Equiv.swap 0 j) (Equiv.refl G)) τ 0 = τ j := by
      simp [Equiv.arrowCongr]
    rw [h0]
    have hs : ∑ i, (if r (t (τ j)) (t ((Equiv.arrowCongr (Equiv.swap 0 j) (Equiv.refl G)) τ i))
        then 1 else 0) = ∑ i, if r (t (τ j)) (t (τ i)) then 1 else 0 := by
      refine Fintype.sum_equiv (Equiv.swap 0 j) _ _ fun i => ?_
      simp [Equiv.arrowCongr]
    rw [hs]
  rw [sum_congr rfl fun j _ => h j]
  simp

variable [Group G]

/-- A labelling and resampling permutations, seen as a tuple of labellings. -/
def labellings : G × (Fin B → G) ≃ (Fin (B + 1) → G) where
  toFun ω := Fin.cons ω.1 fun i => ω.1 * ω.2 i
  invFun τ := (τ 0, fun i => (τ 0)⁻¹ * τ i.succ)
  left_inv ω := by simp
  right_inv τ := by
    funext i
    refine Fin.cases ?_ (fun i => ?_) i <;> simp

theorem card_filter_labellings (Q : (Fin (B + 1) → G) → Prop) [DecidablePred Q] :
    (univ.filter fun ω : G × (Fin B → G) => Q (Fin.cons ω.1 fun i => ω.1 * ω.2 i)).card
      = (univ.filter Q).card := by
  refine card_equiv labellings fun ω => ?_
  simp [labellings]

open Classical in
theorem countAbove_eq_card (π : G) (σ : Fin B → G) (f : ℕ → FP ℝ)
    (hf : ∀ i : Fin B, f i = .fin (t (π * σ i))) :
    Spec.countAbove (.fin (t π)) f B = (univ.filter fun i : Fin (B + 1) =>
      t ((Fin.cons π fun i => π * σ i : Fin (B + 1) → G) 0)
        < t ((Fin.cons π fun i => π * σ i : Fin (B + 1) → G) i)).card := by
  unfold Spec.countAbove
  refine card_bij (fun i hi => (⟨i, mem_range.1 (mem_filter.1 hi).1⟩ : Fin B).succ) ?_ ?_ ?_
  · intro i hi
    have h := mem_filter.1 hi
    rw [mem_filter]
    refine ⟨mem_univ _, ?_⟩
    rw [Fin.cons_zero, Fin.cons_succ]
    have := h.2
    rw [hf ⟨i, mem_range.1 h.1⟩] at this
    exact this
  · intro i hi j hj hij
    have := Fin.succ_injective _ hij
    exact congrArg Fin.val this
  · intro i hi
    rw [mem_filter] at hi
    rcases Fin.eq_zero_or_eq_succ i with rfl | ⟨j, rfl⟩
    · exact absurd hi.2 (lt_irrefl _)
    · refine ⟨j, mem_filter.2 ⟨mem_range.2 j.2, ?_⟩, rfl⟩
      have := hi.2
      rw [Fin.cons_zero, Fin.cons_succ] at this
      rw [hf j]
      exact this

variable {pv : G × (Fin B → G) → ℝ}

/-- A p-value at most `k / (B + 1)` means fewer than `k` values above the observed one. -/
theorem pvalue_le_iff (hpv : ∀ ω, ∃ f : ℕ → FP ℝ, (∀ i : Fin B, f i = .fin (t (ω.1 * ω.2 i))) ∧
      pv ω = Spec.permPvalue (.fin (t ω.1)) f B) (k : ℕ) (ω : G × (Fin B → G)) :
    pv ω ≤ (k : ℝ) / ((B : ℝ) + 1) ↔ (univ.filter fun i : Fin (B + 1) =>
      t ((Fin.cons ω.1 fun i => ω.1 * ω.2 i : Fin (B + 1) → G) 0)
        < t ((Fin.cons ω.1 fun i => ω.1 * ω.2 i : Fin (B + 1) → G) i)).card < k := by
  obtain ⟨f, hf, hp⟩ := hpv ω
  have h := countAbove_eq_card t ω.1 ω.2 f hf
  have hB : (0 : ℝ) < (B : ℝ) + 1 := by positivity
  rw [hp, Spec.permPvalue, div_le_div_iff_of_pos_right hB, h]
  generalize card _ = c
  constructor
  · intro h
    have : c + 1 ≤ k := by exact_mod_cast h
    omega
  · intro h
    have : c + 1 ≤ k := by omega
    exact_mod_cast this

/-- The p-value is at most `k / (B + 1)` with a probability above `k / (B + 1)`. -/
theorem level_exceeds (hpv : ∀ ω, ∃ f : ℕ → FP ℝ, (∀ i : Fin B, f i = .fin (t (ω.1 * ω.2 i))) ∧
      pv ω = Spec.permPvalue (.fin (t ω.1)) f B) {k : ℕ} (hk : 0 < k) (hkB : k ≤ B) :
    k * Fintype.card (G × (Fin B → G))
      < (B + 1) * (univ.filter fun ω => pv ω ≤ (k : ℝ) / ((B : ℝ) + 1)).card := by
  simp only [pvalue_le_iff t hpv]
  rw [card_filter_labellings fun τ : Fin (B + 1) → G =>
    (univ.filter fun i => t (τ 0) < t (τ i)).card < k,
    ← sum_card_eq t (· < k) (· < ·), Fintype.card_congr labellings, mul_comm, ← card_univ,
    ← smul_eq_mul, ← sum_const]
  refine sum_lt_sum (fun τ _ => le_card_few_above (fun i => t (τ i)) (by omega))
    ⟨fun _ => 1, mem_univ _, ?_⟩
  simp only [lt_self_iff_false, filter_false, card_empty, hk, filter_true, card_univ,
    Fintype.card_fin]
  omega

/-- Apart from ties, the p-value is at most `k / (B + 1)` with a probability of at most
`k / (B + 1)`. -/
theorem level_le (hpv : ∀ ω, ∃ f : ℕ → FP ℝ, (∀ i : Fin B, f i = .fin (t (ω.1 * ω.2 i))) ∧
      pv ω = Spec.permPvalue (.fin (t ω.1)) f B) (k : ℕ) :
    (B + 1) * (univ.filter fun ω => pv ω ≤ (k : ℝ) / ((B : ℝ) + 1)).card
      ≤ k * Fintype.card (G × (Fin B → G))
        + (B + 1) * (univ.filter fun ω : G × (Fin B → G) =>
          ∃ i, t (ω.1 * ω.2 i) = t ω.1).card := by
  have h1 : (univ.filter fun ω => pv ω ≤ (k : ℝ) / ((B : ℝ) + 1)) ⊆
      (univ.filter fun ω : G × (Fin B → G) => (univ.filter fun i : Fin (B + 1) =>
        t ((Fin.cons ω.1 fun i => ω.1 * ω.2 i : Fin (B + 1) → G) 0)
          ≤ t ((Fin.cons ω.1 fun i => ω.1 * ω.2 i : Fin (B + 1) → G) i)).card ≤ k) ∪
      (univ.filter fun ω : G × (Fin B → G) => ∃ i, t (ω.1 * ω.2 i) = t ω.1) := by
    intro ω hω
    rw [mem_filter, pvalue_le_iff t hpv] at hω
    rw [mem_union, mem_filter, mem_filter]
    by_cases ht : ∃ i, t (ω.1 * ω.2 i) = t ω.1
    · exact Or.inr ⟨mem_univ _, ht⟩
    · left
      refine ⟨mem_univ _, ?_⟩
      have hsub : (univ.filter fun i : Fin (B + 1) =>
          t ((Fin.cons ω.1 fun i => ω.1 * ω.2 i : Fin (B + 1) → G) 0)
            ≤ t ((Fin.cons ω.1 fun i => ω.1 * ω.2 i : Fin (B + 1) → G) i)) ⊆
          insert 0 (univ.filter fun i : Fin (B + 1) =>
            t ((Fin.cons ω.1 fun i => ω.1 * ω.2 i : Fin (B + 1) → G) 0)
              < t ((Fin.cons ω.1 fun i => ω.1 * ω.2 i : Fin (B + 1) → G) i)) := by
        intro i hi
        rw [mem_insert]
        rcases Fin.eq_zero_or_eq_succ i with rfl | ⟨j, rfl⟩
        · exact Or.inl rfl
        · right
          rw [mem_filter] at hi ⊢
          refine ⟨mem_univ _, lt_of_le_of_ne hi.2 fun e => ht ⟨j, ?_⟩⟩
          rw [Fin.cons_zero, Fin.cons_succ] at e
          exact e.symm
      have := (card_le_card hsub).trans (card_insert_le _ _)
      omega
  have h2 := (card_le_card h1).trans (card_union_le _ _)
  have h3 := card_filter_labellings (G := G) (B := B) fun τ : Fin (B + 1) → G =>
    (univ.filter fun i => t (τ 0) ≤ t (τ i)).card ≤ k
  rw [h3] at h2
  refine (Nat.mul_le_mul_left _ h2).trans ?_
  rw [Nat.mul_add, ← sum_card_eq t (· ≤ k) (· ≤ ·)]
  refine Nat.add_le_add_right ?_ _
  rw [Fintype.card_congr labellings, mul_comm, ← card_univ, ← smul_eq_mul, ← sum_const]
  exact sum_le_sum fun τ _ => card_few_not_below_le (fun i => t (τ i)) k

end Count

/-! ### Replayed permutations -/

theorem stateAt_replay {n B : ℕ} (σ : Fin B → Equiv.Perm (Fin n)) (s k : ℕ) :
    stateAt (Rng.replay σ) n s k = s + k := by
  unfold stateAt
  induction k with
  | zero => rfl
  | succ k ih =>
    rw [Function.iterate_succ', Function.comp, ih]
    rfl

theorem permAt_replay {n B : ℕ} (σ : Fin B → Equiv.Perm (Fin n)) (i : Fin B) :
    permAt (Rng.replay σ) n 0 i = σ i := by
  unfold permAt
  rw [stateAt_replay]
  unfold Rng.replay
  dsimp only
  rw [dif_pos ⟨rfl, by simp⟩]
  simp

end Dcor

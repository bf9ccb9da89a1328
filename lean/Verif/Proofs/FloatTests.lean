/-
The p-values of the permutation tests in `float64`, and NaN in their statistics.
-/
import Verif.Model.RoundingTests
import Verif.Proofs.NonFinite
import Verif.Proofs.Range64

open scoped List

namespace Dcor

theorem perm_map {α β : Type} {f : α → β} {l : List β} {v : List α} (h : l.Perm (v.map f)) :
    ∃ w : List α, l = w.map f ∧ w.Perm v := by
  have e := congrFun (congrFun (List.eq_map_comp_perm f) l) v
  exact (Eq.mpr e h : Relation.Comp (· = List.map f ·) (· ~ ·) l v)

namespace F64

theorem round_nat {k : ℕ} (hk : k ≤ 2 ^ 53) : round (k : ℚ) = fin k := by
  have hz : round64 ((k : ℤ) : ℚ) = ((k : ℤ) : ℚ) := round64_int k (by rw [Nat.abs_cast]; exact_mod_cast hk)
  rw [Int.cast_natCast] at hz
  have hg := OnGrid.int k
  rw [Int.cast_natCast] at hg
  rw [round_eq (Or.inl (hg.mono (by norm_num))), hz, if_neg]
  rw [not_le, abs_of_nonneg (Nat.cast_nonneg k)]
  calc (k : ℚ) ≤ 2 ^ 53 := by exact_mod_cast hk
    _ < 2 ^ 1024 := pow_lt_pow_right₀ (by norm_num) (by norm_num)

theorem round_zero : round 0 = fin 0 := round_nat (k := 0) (by norm_num)

theorem round_one : round 1 = fin 1 := by exact_mod_cast round_nat (k := 1) (by norm_num)

/-- A sum of natural numbers is exact up to `2 ^ 53`, in any order. -/
theorem Sums.nat {l : List F64} {r : F64} (h : Sums l r) :
    ∀ v : List ℕ, l = v.map (fun k : ℕ => fin (k : ℚ)) → v.sum ≤ 2 ^ 53 → r = fin (v.sum : ℚ) := by
  induction h with
  | nil =>
    intro v hv _
    rw [List.nil_eq, List.map_eq_nil_iff] at hv
    subst hv
    simp
  | single a =>
    intro v hv _
    rw [eq_comm, List.map_eq_singleton_iff] at hv
    obtain ⟨k, rfl, rfl⟩ := hv
    simp
  | add _ _ _ _ ih ih' =>
    intro v hv hs
    rw [eq_comm, List.map_eq_append_iff] at hv
    obtain ⟨v1, v2, rfl, rfl, rfl⟩ := hv
    rw [List.sum_append] at hs
    rw [ih v1 rfl (by omega), ih' v2 rfl (by omega), List.sum_append]
    show round ((v1.sum : ℚ) + (v2.sum : ℚ)) = _
    rw [← Nat.cast_add]
    exact round_nat hs
  | perm _ hp ih =>
    intro v hv hs
    subst hv
    obtain ⟨w, e, hw⟩ := perm_map hp
    rw [ih w e (by rw [hw.sum_eq]; exact hs), hw.sum_eq]

end F64

/-- A sum of natural numbers is exact up to `2 ^ 53`, in any order. -/
theorem SumsTo.nat {l : List ℚ} {r : ℚ} (h : SumsTo l r) :
    ∀ v : List ℕ, l = v.map (fun k : ℕ => (k : ℚ)) → v.sum ≤ 2 ^ 53 → r = (v.sum : ℚ) := by
  induction h with
  | nil =>
    intro v hv _
    rw [List.nil_eq, List.map_eq_nil_iff] at hv
    subst hv
    simp
  | single a =>
    intro v hv _
    rw [eq_comm, List.map_eq_singleton_iff] at hv
    obtain ⟨k, rfl, rfl⟩ := hv
    simp
  | add _ _ _ _ ih ih' =>
    intro v hv hs
    rw [eq_comm, List.map_eq_append_iff] at hv
    obtain ⟨v1, v2, rfl, rfl, rfl⟩ := hv
    rw [List.sum_append] at hs
    rw [ih v1 rfl (by omega), ih' v2 rfl (by omega), List.sum_append, Nat.cast_add, ← Nat.cast_add]
    have := round64_int ((v1.sum + v2.sum : ℕ) : ℤ) (by rw [Nat.abs_cast]; exact_mod_cast hs)
    rwa [Int.cast_natCast] at this
  | perm _ hp ih =>
    intro v hv hs
    subst hv
    obtain ⟨w, e, hw⟩ := perm_map hp
    rw [ih w e (by rw [hw.sum_eq]; exact hs), hw.sum_eq]

theorem sum_indicator {α : Type} (l : List α) (p : α → Bool) : (l.map fun a => if p a then 1 else 0).sum = l.countP p := by
  induction l with
  | nil => rfl
  | cons a l ih =>
    rw [List.map_cons, List.sum_cons, ih, List.countP_cons, Nat.add_comm]

section ieee

open F64

variable {sqrt : F64 → F64} {sum : List F64 → F64} {dot : List (F64 × F64) → F64} {n m p q r : ℕ}

local notation "I" => ieee64 sqrt sum dot

/-- The p-value is the rounded quotient of the number of statistics above the observed one, plus one, and the number of
permutations, plus one. -/
theorem pvalue_ieee (h : IsIeee64 sqrt sum dot) (perms : List (Equiv.Perm (Fin n))) (hp : perms.length < 2 ^ 53)
    (d : Fin n → Fin n → F64) (stat : (Fin n → Fin n → F64) → F64) :
    (Arith.permutationTest I perms d stat).pvalue = F64.round (((perms.countP fun π =>
      F64.lt (stat d) (stat (permutedMatrix d π)) : ℕ) + 1) / ((perms.length : ℚ) + 1)) := by
  have hle : (perms.countP fun π => F64.lt (stat d) (stat (permutedMatrix d π))) ≤ perms.length := List.countP_le_length
  have e0 : F64.round ((0 : ℤ) : ℚ) = fin 0 := by rw [Int.cast_zero, round_zero]
  have e1 : F64.round ((1 : ℤ) : ℚ) = fin 1 := by rw [Int.cast_one, round_one]
  have es : sum (perms.map fun π => if F64.lt (stat d) (stat (permutedMatrix d π)) then F64.round ((1 : ℤ) : ℚ)
      else F64.round ((0 : ℤ) : ℚ)) = fin ((perms.countP fun π => F64.lt (stat d) (stat (permutedMatrix d π)) : ℕ) : ℚ) := by
    have := (h.sum (perms.map fun π => if F64.lt (stat d) (stat (permutedMatrix d π)) then F64.round ((1 : ℤ) : ℚ)
      else F64.round ((0 : ℤ) : ℚ))).nat (perms.map fun π => if F64.lt (stat d) (stat (permutedMatrix d π)) then 1 else 0)
      (by
        rw [List.map_map]
        apply List.map_congr_left
        intro π _
        rw [e0, e1]
        simp only [Function.comp_apply]
        split_ifs <;> simp)
      (by rw [sum_indicator]; omega)
    rw [this, sum_indicator]
  show F64.div (F64.add (sum _) (F64.round ((1 : ℤ) : ℚ))) (F64.round ((((perms.length : ℤ) + 1 : ℤ)) : ℚ)) = _
  erw [es]
  rw [e1]
  show F64.div (F64.round (_ + 1)) _ = _
  have e2 := round_nat (k := (perms.countP fun π => F64.lt (stat d) (stat (permutedMatrix d π))) + 1) (by omega)
  have e3 := round_nat (k := perms.length + 1) (by omega)
  rw [Nat.cast_add, Nat.cast_one] at e2 e3
  have e4 : (((perms.length : ℤ) + 1 : ℤ) : ℚ) = (perms.length : ℚ) + 1 := by push_cast; rfl
  rw [e2, e4, e3]
  show (if _ then _ else _) = _
  rw [if_neg (by positivity)]

/-- If the observed statistic is NaN no statistic is above it. -/
theorem pvalue_nan (h : IsIeee64 sqrt sum dot) (perms : List (Equiv.Perm (Fin n))) (hp : perms.length < 2 ^ 53)
    (d : Fin n → Fin n → F64) (stat : (Fin n → Fin n → F64) → F64) (hs : stat d = nan) :
    (Arith.permutationTest I perms d stat).pvalue = F64.round (1 / ((perms.length : ℚ) + 1)) := by
  rw [pvalue_ieee h perms hp]
  have : (perms.countP fun π => F64.lt (stat d) (stat (permutedMatrix d π))) = 0 := by
    rw [List.countP_eq_zero]
    intro π _
    rw [hs, nan_lt]
    exact Bool.false_ne_true
  rw [this, Nat.cast_zero, zero_add]

theorem products_nan {a b : Fin n → Fin n → F64} {i j : Fin n} (hij : a i j = nan ∨ b i j = nan) :
    nan ∈ Arith.products I a b := by
  refine (mem_flatAll _ _).2 ⟨i, j, ?_⟩
  show F64.mul _ _ = nan
  rcases hij with e | e <;> rw [e]
  · exact nan_mul _
  · exact mul_nan _

theorem meanProduct_nan (h : IsIeee64 sqrt sum dot) {a b : Fin n → Fin n → F64} {i j : Fin n}
    (hij : a i j = nan ∨ b i j = nan) : Arith.meanProduct I a b = nan := by
  show F64.div (sum (Arith.products I a b)) _ = nan
  rw [(h.sum _).nan (products_nan hij), nan_div]

theorem uProduct_nan (h : IsIeee64 sqrt sum dot) {a b : Fin n → Fin n → F64} {i j : Fin n}
    (hij : a i j = nan ∨ b i j = nan) : Arith.uProduct I a b = nan := by
  show F64.div (sum (Arith.products I a b)) _ = nan
  rw [(h.sum _).nan (products_nan hij), nan_div]

namespace F64

theorem roundTiny_neg (q : ℚ) : roundTiny (-q) = -roundTiny q := by
  rcases lt_trichotomy q 0 with h | rfl | h
  · unfold roundTiny
    rw [if_pos h, if_neg (by linarith), Rat.neg_num, Int.natAbs_neg, Rat.neg_den, neg_neg]
  · rw [neg_zero]
    have : roundTiny 0 = 0 := by decide +kernel
    rw [this, neg_zero]
  · unfold roundTiny
    rw [if_neg (show ¬ q < 0 by linarith), if_pos (show -q < 0 by linarith), Rat.neg_num, Int.natAbs_neg, Rat.neg_den]

theorem round_neg (q : ℚ) : round (-q) = neg (round q) := by
  have key : ∀ r : ℚ, (if 2 ^ 1024 ≤ |-r| then inf (decide (-r < 0)) else fin (-r))
      = neg (if 2 ^ 1024 ≤ |r| then inf (decide (r < 0)) else fin r) := by
    intro r
    rw [abs_neg]
    split_ifs with h
    · show inf _ = inf _
      have h0 : r ≠ 0 := by
        rintro rfl
        rw [abs_zero] at h
        exact absurd h (not_le.2 (by positivity))
      rcases lt_or_gt_of_ne h0 with h1 | h1
      · rw [decide_eq_true h1, decide_eq_false (by linarith)]
        rfl
      · rw [decide_eq_true (show -r < 0 by linarith), decide_eq_false (by linarith)]
        rfl
    · rfl
  unfold round
  dsimp only
  rw [abs_neg, roundTiny_neg, round64_neg, ← key]
  split_ifs <;> rfl

theorem neg_mul_neg (a b : F64) : mul (neg a) (neg b) = mul a b := by
  have hb : ∀ q : ℚ, q ≠ 0 → decide (-q < 0) = !decide (q < 0) := by
    intro q hq
    rcases lt_or_gt_of_ne hq with h | h
    · rw [decide_eq_true h, decide_eq_false (by linarith)]
      rfl
    · rw [decide_eq_true (show -q < 0 by linarith), decide_eq_false (by linarith)]
      rfl
  cases a <;> cases b
  all_goals first | rfl | skip
  · rename_i s t
    show inf _ = inf _
    cases s <;> cases t <;> rfl
  · rename_i s q
    show (if -q = 0 then nan else inf _) = if q = 0 then nan else inf _
    by_cases hq : q = 0
    · rw [if_pos hq, if_pos (by rw [hq, neg_zero])]
    · rw [if_neg hq, if_neg (by rwa [neg_eq_zero]), hb q hq]
      cases s <;> cases decide (q < 0) <;> rfl
  · rename_i q s
    show (if -q = 0 then nan else inf _) = if q = 0 then nan else inf _
    by_cases hq : q = 0
    · rw [if_pos hq, if_pos (by rw [hq, neg_zero])]
    · rw [if_neg hq, if_neg (by rwa [neg_eq_zero]), hb q hq]
      cases s <;> cases decide (q < 0) <;> rfl
  · rename_i s t
    show round (-s * -t) = round (s * t)
    rw [_root_.neg_mul_neg]

theorem neg_sub (a b : F64) : sub b a = neg (sub a b) := by
  match a, b with
  | nan, b => rw [sub_nan, nan_sub]; rfl
  | inf s, nan => rfl
  | fin s, nan => rfl
  | inf s, inf t => cases s <;> cases t <;> rfl
  | inf s, fin t => rfl
  | fin s, inf t => cases t <;> rfl
  | fin s, fin t =>
    show round (t + -s) = neg (round (s + -t))
    rw [← round_neg]
    congr 1
    ring

end F64

theorem cdist_symm (x : Fin n → Fin p → F64) (i j : Fin n) : Arith.cdist I x x i j = Arith.cdist I x x j i := by
  show sqrt _ = sqrt _
  congr 2
  funext k
  show F64.mul (F64.sub _ _) (F64.sub _ _) = F64.mul (F64.sub _ _) (F64.sub _ _)
  rw [F64.neg_sub (x j k) (x i k), F64.neg_mul_neg]

/-- A distance that is not finite makes the entry of the centred matrix NaN. -/
theorem centred_nan (h : IsIeee64 sqrt sum dot) {x : Fin n → Fin p → F64} {i j : Fin n}
    (hd : ¬ (Arith.cdist I x x i j).Finite) {k : ℤ} (hk : 0 ≤ k) (t : F64) :
    F64.add (F64.sub (F64.sub (Arith.euclidean I x i j) (Arith.idiv I (Arith.axisSum I (Arith.euclidean I x) j) k))
      (Arith.idiv I (Arith.axisSum I (Arith.euclidean I x) i) k)) t = nan := by
  have hij : Top (Arith.cdist I x x i j) := (cdist_nn h x x i j).top hd
  have hs : Top (Arith.axisSum I (Arith.euclidean I x) j) := by
    refine (h.sum _).top (fun a ha => ?_) ⟨Arith.cdist I x x j i, List.mem_ofFn.2 ⟨i, rfl⟩, cdist_symm x i j ▸ hij⟩
    obtain ⟨l, rfl⟩ := List.mem_ofFn.1 ha
    exact cdist_nn h x x j l
  have hm : Top (Arith.idiv I (Arith.axisSum I (Arith.euclidean I x) j) k) := hs.div (round_nn (by exact_mod_cast hk))
  have e : F64.sub (Arith.euclidean I x i j) (Arith.idiv I (Arith.axisSum I (Arith.euclidean I x) j) k) = nan :=
    Top.sub hij hm
  rw [e, nan_sub, nan_add]

theorem doubleCentered_nan (h : IsIeee64 sqrt sum dot) {x : Fin n → Fin p → F64} {i j : Fin n}
    (hd : ¬ (Arith.cdist I x x i j).Finite) : Arith.doubleCentered I (Arith.euclidean I x) i j = nan :=
  centred_nan h hd (Int.natCast_nonneg n) _

theorem uDistanceMatrix_nan (h : IsIeee64 sqrt sum dot) {x : Fin n → Fin p → F64} {i j : Fin n} (hij : i ≠ j)
    (hd : ¬ (Arith.cdist I x x i j).Finite) : Arith.uDistanceMatrix I x i j = nan := by
  have hn : 2 ≤ n := by
    have := i.2
    have := j.2
    have : (i : ℕ) ≠ j := fun e => hij (Fin.ext e)
    omega
  unfold Arith.uDistanceMatrix Arith.uCentered
  dsimp only
  rw [if_neg hij]
  exact centred_nan h hd (by omega) _

/-- The complementary projection of a matrix with a NaN, or with respect to a matrix with a NaN. -/
theorem complementary_nan (h : IsIeee64 sqrt sum dot) {a c : Fin n → Fin n → F64} {i j : Fin n}
    (hij : a i j = nan ∨ c i j = nan) : Arith.uComplementaryProjection I c a i j = nan := by
  show F64.sub (a i j) (Arith.uProjection I c a i j) = nan
  rcases hij with e | e
  · rw [e, nan_sub]
  · have hu : Arith.uProduct I c c = nan := uProduct_nan h (Or.inl e)
    have hp : Arith.uProjection I c a i j = nan := by
      unfold Arith.uProjection
      rw [hu, if_neg (by
        rw [show Arith.eqZero I nan = false from nan_eq (F64.round ((0 : ℤ) : ℚ))]
        exact Bool.false_ne_true)]
      show F64.mul _ (c i j) = nan
      rw [e, mul_nan]
    rw [hp, sub_nan]

theorem permuted_nan {d : Fin n → Fin n → F64} {i j : Fin n} (hd : d i j = nan) (π : Equiv.Perm (Fin n)) :
    permutedMatrix d π (π.symm i) (π.symm j) = nan := by
  show d (π (π.symm i)) (π (π.symm j)) = nan
  rwa [Equiv.apply_symm_apply, Equiv.apply_symm_apply]

/-- Additions from left to right keep a NaN. -/
theorem foldl_add_nan : ∀ (l : List F64) (e : F64), nan ∈ e :: l → l.foldl F64.add e = nan := fun l e h =>
  (sumSeq_sums (e :: l)).nan h

end ieee

section several

variable {R : Type} (A : Arith R) {k p : ℕ} {size : Fin k → ℕ}

theorem pooled_apply (x : (b : Fin k) → Fin (size b) → Fin p → R) (b : Fin k) (i : Fin (size b)) :
    Arith.pooled x (finSigmaFinEquiv ⟨b, i⟩) = x b i := by
  unfold Arith.pooled
  rw [Equiv.symm_apply_apply]

/-- A block of the distance matrix of the pooled sample holds the distances between two samples. -/
theorem block_cdist (x : (b : Fin k) → Fin (size b) → Fin p → R) (b c : Fin k) :
    Arith.block (A.cdist (Arith.pooled x) (Arith.pooled x)) b c = A.cdist (x b) (x c) := by
  funext i j
  show A.cdist _ _ _ _ = _
  unfold Arith.cdist
  rw [pooled_apply, pooled_apply]

theorem pairEnergy_cdist (s : EstStat) (x : (b : Fin k) → Fin (size b) → Fin p → R) (b c : Fin k) :
    A.pairEnergy s (A.cdist (Arith.pooled x) (Arith.pooled x)) b c = A.energyTestStatistic s (x b) (x c) := by
  unfold Arith.pairEnergy Arith.energyTestStatistic Arith.energyDistance
  rw [block_cdist, block_cdist, block_cdist]

theorem mem_pairEnergies {A : Arith R} {s : EstStat} {d : Fin (∑ b, size b) → Fin (∑ b, size b) → R} {e : R} :
    e ∈ A.pairEnergies s d ↔ ∃ b c : Fin k, b < c ∧ A.pairEnergy s d b c = e := by
  simp only [Arith.pairEnergies, List.mem_flatMap, List.mem_map, List.mem_filter, List.mem_finRange, true_and,
    decide_eq_true_eq, Fin.lt_def, Nat.succ_le_iff]

end several

theorem energyMultivariate_nan {sqrt : F64 → F64} {sum : List F64 → F64} {dot : List (F64 × F64) → F64} {k : ℕ}
    {size : Fin k → ℕ} {s : EstStat} {d : Fin (∑ b, size b) → Fin (∑ b, size b) → F64}
    (h : F64.nan ∈ (ieee64 sqrt sum dot).pairEnergies s d) : (ieee64 sqrt sum dot).energyMultivariate s d = F64.nan := by
  unfold Arith.energyMultivariate
  revert h
  generalize (ieee64 sqrt sum dot).pairEnergies s d = l
  intro h
  match l, h with
  | e :: l, h => exact foldl_add_nan l e h

end Dcor

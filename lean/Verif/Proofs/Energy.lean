/-
Value of `energy_distance` in terms of the textbook definition.
-/
import Verif.Proofs.Distances
import Verif.Spec.Energy
import Verif.Spec.EnergyCalls

namespace Dcor

open Finset

variable {n m p : ℕ} {env : Env} {x y : Arr} {o : EnergyOpts} {X : Fin n → Fin p → ℝ}
  {Y : Fin m → Fin p → ℝ}

theorem PyM.mk_ok_bind {α β : Type} (w : List Warn) (a : α) (f : α → PyM β) :
    ((⟨w, .ok a⟩ : PyM α) >>= f) = ⟨w ++ (f a).warns, (f a).out⟩ := rfl

/-! ### Upper triangles -/

theorem sum_map_filter' {A M : Type} [AddCommMonoid M] (l : List A) (q : A → Bool) (f : A → M) :
    ((l.filter q).map f).sum = (l.map fun a => if q a then f a else 0).sum := by
  induction l with
  | nil => rfl
  | cons a l ih => by_cases h : q a <;> simp [h, ih]

theorem flatUpper_map_sum {M : Type} [AddCommMonoid M] (a : Mat2) (k : ℕ) (f : ℝ → M) :
    ((flatUpper a k).map f).sum
      = ∑ i : Fin a.n, ∑ j : Fin a.p, if (i : ℕ) + k ≤ (j : ℕ) then f (a.m i j) else 0 := by
  unfold flatUpper
  rw [List.map_flatMap, List.flatMap_def, List.sum_flatten, List.map_map, ← List.ofFn_eq_map,
    List.sum_ofFn]
  refine sum_congr rfl fun i _ => ?_
  simp only [Function.comp, List.map_map]
  rw [sum_map_filter', ← List.ofFn_eq_map, List.sum_ofFn]
  simp

/-- Twice the sum above the diagonal of a symmetric matrix is the sum off the diagonal. -/
theorem two_mul_sum_upper (d : Fin n → Fin n → ℝ) (hd : ∀ i j, d i j = d j i) :
    2 * (∑ i : Fin n, ∑ j : Fin n, if (i : ℕ) + 1 ≤ (j : ℕ) then d i j else 0)
      = ∑ i, ∑ j ∈ univ.filter (· ≠ i), d i j := by
  have h1 : ∑ i, ∑ j ∈ univ.filter (· ≠ i), d i j
      = (∑ i : Fin n, ∑ j : Fin n, if (i : ℕ) + 1 ≤ (j : ℕ) then d i j else 0)
        + ∑ i : Fin n, ∑ j : Fin n, if (j : ℕ) + 1 ≤ (i : ℕ) then d i j else 0 := by
    rw [← sum_add_distrib]
    refine sum_congr rfl fun i _ => ?_
    rw [← sum_add_distrib, sum_filter]
    refine sum_congr rfl fun j _ => ?_
    rcases lt_trichotomy (i : ℕ) (j : ℕ) with h | h | h
    · rw [if_pos (fun e => by subst e; omega), if_pos (by omega), if_neg (by omega), add_zero]
    · rw [if_neg (by simpa using Fin.ext h.symm), if_neg (by omega), if_neg (by omega), add_zero]
    · rw [if_pos (fun e => by subst e; omega), if_neg (by omega), if_pos (by omega), zero_add]
  have h2 : (∑ i : Fin n, ∑ j : Fin n, if (j : ℕ) + 1 ≤ (i : ℕ) then d i j else 0)
      = ∑ i : Fin n, ∑ j : Fin n, if (i : ℕ) + 1 ≤ (j : ℕ) then d i j else 0 := by
    rw [sum_comm]
    exact sum_congr rfl fun i _ => sum_congr rfl fun j _ => by rw [hd]
  rw [h1, h2, two_mul]

theorem sum_off_diag_one : (∑ i : Fin n, ∑ _j ∈ univ.filter (· ≠ i), (1 : ℝ)) = n * (n - 1) := by
  rcases Nat.eq_zero_or_pos n with rfl | hn
  · simp
  have : ∀ i : Fin n, (∑ _j ∈ univ.filter (· ≠ i), (1 : ℝ)) = n - 1 := by
    intro i
    rw [filter_ne', sum_const, card_erase_of_mem (mem_univ i), card_univ, Fintype.card_fin,
      nsmul_eq_mul, mul_one, Nat.cast_sub (by omega), Nat.cast_one]
  simp only [this, sum_const, card_univ, Fintype.card_fin, nsmul_eq_mul]

theorem two_mul_length_flatUpper (d : Fin n → Fin n → ℝ) :
    2 * ((flatUpper ⟨n, n, d⟩ 1).length : ℝ) = n * (n - 1) := by
  have h := flatUpper_map_sum ⟨n, n, d⟩ 1 fun _ => (1 : ℝ)
  have h' : ((flatUpper ⟨n, n, d⟩ 1).map fun _ => (1 : ℝ)).sum
      = ((flatUpper ⟨n, n, d⟩ 1).length : ℝ) := by simp
  rw [← h', h, two_mul_sum_upper (n := n) (fun _ _ => (1 : ℝ)) fun _ _ => rfl, sum_off_diag_one]

theorem two_mul_sum_flatUpper (d : Fin n → Fin n → ℝ) (hd : ∀ i j, d i j = d j i) :
    2 * (flatUpper ⟨n, n, d⟩ 1).sum = ∑ i, ∑ j ∈ univ.filter (· ≠ i), d i j := by
  have h := flatUpper_map_sum ⟨n, n, d⟩ 1 id
  rw [List.map_id] at h
  rw [h]
  exact two_mul_sum_upper d hd

/-! ### Averages -/

theorem meanOf_mat (hn : 0 < n) (hm : 0 < m) (d : Fin n → Fin m → ℝ) :
    meanOf (.mat ⟨n, m, d⟩) = .fin ((∑ i, ∑ j, d i j) / (n * m)) :=
  FP.fin_div _ (by positivity)

theorem meanOf_upper (hn : 2 ≤ n) (d : Fin n → Fin n → ℝ) (hd : ∀ i j, d i j = d j i) :
    meanOf (.flat (flatUpper ⟨n, n, d⟩ 1))
      = .fin ((∑ i, ∑ j ∈ univ.filter (· ≠ i), d i j) / (n * (n - 1))) := by
  have hl := two_mul_length_flatUpper d
  have hs := two_mul_sum_flatUpper d hd
  have hn' : (2 : ℝ) ≤ n := by exact_mod_cast hn
  have hpos : (0 : ℝ) < n * (n - 1) := mul_pos (by linarith) (by linarith)
  have hne : ((flatUpper ⟨n, n, d⟩ 1).length : ℝ) ≠ 0 := by
    intro h
    rw [h, mul_zero] at hl
    linarith
  unfold meanOf
  dsimp only
  rw [FP.fin_div _ hne, ← hl, ← hs, mul_div_mul_left _ _ two_ne_zero]

theorem meanOf_nil : meanOf (.flat []) = .nan := by
  simp [meanOf, FP.fin_div', FP.infOfSign]

theorem meanOf_upper_small (hn : n ≤ 1) (d : Fin n → Fin n → ℝ) :
    meanOf (.flat (flatUpper ⟨n, n, d⟩ 1)) = .nan := by
  have hl := two_mul_length_flatUpper d
  have : (flatUpper ⟨n, n, d⟩ 1).length = 0 := by
    have : n = 0 ∨ n = 1 := by omega
    rcases this with rfl | rfl <;> simpa using hl
  rw [List.length_eq_zero_iff.1 this, meanOf_nil]

theorem meanOf_mat_empty (h : n = 0 ∨ m = 0) (d : Fin n → Fin m → ℝ) :
    meanOf (.mat ⟨n, m, d⟩) = .nan := by
  rcases h with rfl | rfl <;> simp [meanOf, FP.fin_div', FP.infOfSign]

/-! ### `energy_distance` -/

/-- Warnings issued by the energy functions. -/
noncomputable def energyWarns (α : ℝ) : List Warn :=
  if 0 < α ∧ α < 2 then [] else [.energyExponent]

theorem checkValidEnergyExponent_eq (α : ℝ) :
    checkValidEnergyExponent α = ⟨energyWarns α, .ok ()⟩ := by
  unfold checkValidEnergyExponent energyWarns
  split_ifs <;> rfl

/-- Kind of the result of a supported call. -/
def energyKind (x : Arr) : ScalarKind := if x.dtype = .decimal then .pyDecimal else .npFloat

theorem averageKind_none (a b c : Mat2) {dx dy : DType} (h : dx = .decimal ↔ dy = .decimal) :
    averageKind none ⟨a, dx == .decimal⟩ ⟨b, dy == .decimal⟩ ⟨c, joinDType dx dy == .decimal⟩
      = .ok (if dx = .decimal then .pyDecimal else .npFloat) := by
  cases dx <;> cases dy <;> simp_all [averageKind, joinDType]

/-- Sum of the distances between the two samples. -/
theorem cdist_mean (ns : Namespace) (dx dy : DType) (X : Fin n → Fin p → ℝ)
    (Y : Fin m → Fin p → ℝ) (α : ℝ) (hd : (dx = .decimal ∨ dy = .decimal) → ∃ k : ℤ, α = k)
    (hcl : decimalClash dx dy = false) :
    ∃ M, cdist env ns ns dx dy ⟨n, p, X⟩ ⟨m, p, Y⟩ α = .ok M ∧
      meanOf (.mat M) = .fin (∑ i, ∑ j, Spec.dist α (X i) (Y j)) / .fin ((n : ℝ) * m) := by
  by_cases h : (canBeNumpyDouble env ns dx && canBeNumpyDouble env ns dy) = true
  · exact ⟨_, cdist_scipy ns dx dy X Y α h, rfl⟩
  · refine ⟨_, cdist_naive ns dx dy X Y α h hd hcl, ?_⟩
    unfold meanOf
    dsimp only
    rw [sum_comm, mul_comm (m : ℝ)]

theorem energyDistance_eq (h : EnergyCall x y o X Y) {s : EstStat}
    (hs : o.stat.resolve env = .ok s) :
    energyDistance env x y o = ⟨energyWarns o.exponent, .ok ⟨.fin 2 *
        (.fin (∑ i, ∑ j, Spec.dist o.exponent (X i) (Y j)) / .fin ((n : ℝ) * m))
        - meanOf (withinArg s ⟨⟨n, n, Spec.distMat o.exponent X⟩, x.dtype == .decimal⟩)
        - meanOf (withinArg s ⟨⟨m, m, Spec.distMat o.exponent Y⟩, y.dtype == .decimal⟩),
      energyKind x⟩⟩ := by
  unfold energyDistance
  rw [h.hx.to2d, h.hy.to2d, PyM.lift_ok_bind, PyM.lift_ok_bind, checkValidEnergyExponent_eq,
    PyM.mk_ok_bind]
  dsimp only
  rw [pdist_eq env _ _ X _ fun e => h.decimal (Or.inl e),
    pdist_eq env _ _ Y _ fun e => h.decimal (Or.inr e), PyM.lift_ok_bind, PyM.lift_ok_bind]
  obtain ⟨M, hM, hmean⟩ := cdist_mean (env := env) (commonNs x.ns y.ns) x.dtype y.dtype X Y
    o.exponent h.decimal (decimalClash_false h.decimal_iff)
  rw [hM, PyM.lift_ok_bind]
  unfold energyFromMatrices
  rw [hs, h.mean, Except.ok_bind', averageKind_none _ _ _ h.decimal_iff, Except.ok_bind']
  simp only [averageFun, hmean, PyM.lift, List.append_nil, Except.pure_eq, energyKind]

theorem energyDistance_v (h : EnergyCall x y o X Y) (hs : o.stat.resolve env = .ok .v)
    (hn : 0 < n) (hm : 0 < m) :
    energyDistance env x y o = ⟨energyWarns o.exponent,
      .ok ⟨.fin (Spec.energyV o.exponent X Y), energyKind x⟩⟩ := by
  have hn' : (n : ℝ) ≠ 0 := by positivity
  have hm' : (m : ℝ) ≠ 0 := by positivity
  rw [energyDistance_eq h hs, FP.fin_div _ (mul_ne_zero hn' hm')]
  simp only [withinArg]
  rw [meanOf_mat hn hn, meanOf_mat hm hm, FP.fin_mul, FP.fin_sub, FP.fin_sub]
  rfl

theorem energyDistance_u (h : EnergyCall x y o X Y) (hs : o.stat.resolve env = .ok .u)
    (hn : 2 ≤ n) (hm : 2 ≤ m) :
    energyDistance env x y o = ⟨energyWarns o.exponent,
      .ok ⟨.fin (Spec.energyU o.exponent X Y), energyKind x⟩⟩ := by
  have hn' : (n : ℝ) ≠ 0 := by have : n ≠ 0 := by omega
                               exact_mod_cast this
  have hm' : (m : ℝ) ≠ 0 := by have : m ≠ 0 := by omega
                               exact_mod_cast this
  rw [energyDistance_eq h hs, FP.fin_div _ (mul_ne_zero hn' hm')]
  simp only [withinArg]
  rw [meanOf_upper hn _ (Spec.distMat_symm _ X), meanOf_upper hm _ (Spec.distMat_symm _ Y),
    FP.fin_mul, FP.fin_sub, FP.fin_sub]
  rfl

/-- Samples that are too small give NaN. -/
theorem energyDistance_nan (h : EnergyCall x y o X Y) {s : EstStat}
    (hs : o.stat.resolve env = .ok s) (hsmall : n = 0 ∨ m = 0 ∨ (s = .u ∧ (n ≤ 1 ∨ m ≤ 1))) :
    energyDistance env x y o = ⟨energyWarns o.exponent, .ok ⟨.nan, energyKind x⟩⟩ := by
  rw [energyDistance_eq h hs]
  congr 3
  rcases hsmall with rfl | rfl | ⟨rfl, h1 | h1⟩
  · have : meanOf (withinArg s ⟨⟨0, 0, Spec.distMat o.exponent X⟩, x.dtype == .decimal⟩) = .nan := by
      cases s
      · exact meanOf_upper_small (by omega) _
      · exact meanOf_mat_empty (Or.inl rfl) _
    rw [this, FP.sub_nan, FP.nan_sub]
  · have : meanOf (withinArg s ⟨⟨0, 0, Spec.distMat o.exponent Y⟩, y.dtype == .decimal⟩) = .nan := by
      cases s
      · exact meanOf_upper_small (by omega) _
      · exact meanOf_mat_empty (Or.inl rfl) _
    rw [this, FP.sub_nan]
  · simp only [withinArg]
    rw [meanOf_upper_small h1, FP.sub_nan, FP.nan_sub]
  · simp only [withinArg]
    rw [meanOf_upper_small h1, FP.sub_nan]

end Dcor

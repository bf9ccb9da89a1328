/-
The energy distance in `float64`.
-/
import Verif.Model.RoundingEnergy
import Verif.Proofs.ErrorBound
import Verif.Proofs.Scale
import Verif.Proofs.Energy

namespace Dcor

open Finset

variable {sqrt : ℚ → ℚ} {sum : List ℚ → ℚ} {dot : List (ℚ × ℚ) → ℚ} {n m p : ℕ}

local notation "B" => binary64 sqrt sum dot

/-! ### Lists of entries -/

/-- Positions of the entries of a matrix. -/
def allPairs (n m : ℕ) : List (Fin n × Fin m) :=
  (List.finRange n).flatMap fun i => (List.finRange m).map fun j => (i, j)

/-- Positions above the diagonal. -/
def upperPairs (n : ℕ) : List (Fin n × Fin n) :=
  (List.finRange n).flatMap fun (i : Fin n) =>
    ((List.finRange n).filter fun (j : Fin n) => decide ((i : ℕ) + 1 ≤ (j : ℕ))).map fun j => (i, j)

theorem flatAll_eq {R : Type} (d : Fin n → Fin m → R) :
    Arith.flatAll d = (allPairs n m).map fun ij => d ij.1 ij.2 := by
  unfold Arith.flatAll allPairs
  rw [List.map_flatMap]
  simp only [List.map_map]
  rfl

theorem arithFlatUpper_eq {R : Type} (d : Fin n → Fin n → R) :
    Arith.flatUpper d = (upperPairs n).map fun ij => d ij.1 ij.2 := by
  unfold Arith.flatUpper upperPairs
  rw [List.map_flatMap]
  simp only [List.map_map]
  rfl

theorem modelFlatUpper_eq (d : Fin n → Fin n → ℝ) :
    flatUpper ⟨n, n, d⟩ 1 = (upperPairs n).map fun ij => d ij.1 ij.2 := arithFlatUpper_eq d

theorem length_allPairs : (allPairs n m).length = n * m := by simp [allPairs, List.length_flatMap]

theorem sum_allPairs (d : Fin n → Fin m → ℝ) :
    ((allPairs n m).map fun ij => d ij.1 ij.2).sum = ∑ i, ∑ j, d i j := by
  unfold allPairs
  rw [List.map_flatMap, List.flatMap, List.sum_flatten, List.map_map, ← List.ofFn_eq_map, List.sum_ofFn]
  refine Finset.sum_congr rfl fun i _ => ?_
  simp only [Function.comp, List.map_map]
  rw [← List.ofFn_eq_map, List.sum_ofFn]
  rfl

theorem two_mul_length_upperPairs : 2 * ((upperPairs n).length : ℝ) = n * (n - 1) := by
  have := two_mul_length_flatUpper (n := n) fun _ _ => (0 : ℝ)
  rwa [modelFlatUpper_eq, List.length_map] at this

theorem length_upperPairs_le : (upperPairs n).length ≤ n * n := by
  have := two_mul_length_upperPairs (n := n)
  have h : ((upperPairs n).length : ℝ) ≤ ((n * n : ℕ) : ℝ) := by
    push_cast
    nlinarith [Nat.cast_nonneg (α := ℝ) n]
  exact_mod_cast h

theorem length_upperPairs_pos (hn : 2 ≤ n) : 0 < (upperPairs n).length := by
  have := two_mul_length_upperPairs (n := n)
  have h : (0 : ℝ) < ((upperPairs n).length : ℝ) := by
    have : (2 : ℝ) ≤ n := by exact_mod_cast hn
    nlinarith
  exact_mod_cast h

/-! ### Distances -/

theorem cdist_self_symm (x : Fin n → Fin p → ℚ) (y : Fin m → Fin p → ℚ) (i : Fin n) (j : Fin m) :
    Arith.cdist B x y i j = Arith.cdist B y x j i := by
  unfold Arith.cdist
  congr 2
  funext k
  show round64 (round64 (x i k - y j k) * round64 (x i k - y j k))
    = round64 (round64 (y j k - x i k) * round64 (y j k - x i k))
  rw [← neg_sub (y j k), round64_neg, neg_mul_neg]

theorem cdist_move (x : Fin n → Fin p → ℚ) (y : Fin m → Fin p → ℚ) (c s : Fin p → ℚ) (hs : ∀ k, s k = 1 ∨ s k = -1) :
    Arith.cdist B (fun i k => s k * x i k + c k) (fun i k => s k * y i k + c k) = Arith.cdist B x y := by
  funext i j
  unfold Arith.cdist
  congr 2
  funext k
  show round64 (round64 (s k * x i k + c k - (s k * y j k + c k)) * round64 (s k * x i k + c k - (s k * y j k + c k)))
    = round64 (round64 (x i k - y j k) * round64 (x i k - y j k))
  rcases hs k with e | e
  · rw [e, show 1 * x i k + c k - (1 * y j k + c k) = x i k - y j k by ring]
  · rw [e, show -1 * x i k + c k - (-1 * y j k + c k) = -(x i k - y j k) by ring, round64_neg, neg_mul_neg]

theorem cdist_diag (h : IsFloat64 sqrt sum dot) (x : Fin n → Fin p → ℚ) (i : Fin n) : Arith.cdist B x x i i = 0 := by
  show sqrt (sum (List.ofFn fun k => round64 (round64 (x i k - x i k) * round64 (x i k - x i k)))) = 0
  rw [(h.sum _).zero, (h.sqrt 0 le_rfl).eq_zero.2 rfl]
  intro a ha
  obtain ⟨k, rfl⟩ := List.mem_ofFn.1 ha
  rw [sub_self, round64_zero, mul_zero, round64_zero]

theorem scale_cdist (h : Equivariant sqrt sum dot) (j : ℤ) (x : Fin n → Fin p → ℚ) (y : Fin m → Fin p → ℚ) :
    Arith.cdist B (fun i c => 2 ^ j * x i c) (fun i c => 2 ^ j * y i c)
      = fun k l => 2 ^ j * Arith.cdist B x y k l := by
  funext k l
  unfold Arith.cdist
  simp only [scale_sub, scale_mul, scale_vsum h]
  show sqrt _ = _ * sqrt _
  rw [← h.sqrt]
  congr 2
  rw [← two_mul, zpow_mul]
  norm_num

theorem Near.cdist (h : IsFloat64 sqrt sum dot) (x : Fin n → Fin p → ℚ) (y : Fin m → Fin p → ℚ) (i : Fin n)
    (j : Fin m) :
    Near (distErr p) (Spec.dist 1 (fun k => (x i k : ℝ)) fun k => (y j k : ℝ)) (Arith.cdist B x y i j : ℚ) := by
  have := Near.euclidean h ![x i, y j] 0 1
  unfold Spec.dist
  rw [Real.rpow_one]
  exact this

/-! ### Means -/

theorem mean_isFloat (l : List ℚ) : round64 (Arith.mean B l) = Arith.mean B l := round64_idem _

theorem scale_mean (h : Equivariant sqrt sum dot) (j : ℤ) (l : List ℚ) :
    Arith.mean B (l.map fun a => 2 ^ j * a) = 2 ^ j * Arith.mean B l := by
  unfold Arith.mean
  rw [List.length_map, ← scale_idiv]
  congr 1
  exact h.sum j l

theorem Near.mean (h : IsFloat64 sqrt sum dot) {ι : Type} {k : ℕ} (l : List ι) (hl : 0 < l.length) {f : ι → ℝ}
    {g : ι → ℚ} (hfg : ∀ i, Near k (f i) (g i)) :
    Near (k + l.length + 3) ((l.map f).sum / l.length) (Arith.mean B (l.map g) : ℚ) := by
  have h1 : Near k (l.map f).sum (((l.map g).sum : ℚ) : ℝ) := by
    clear hl
    induction l with
    | nil => simpa using (Near.refl le_rfl).mono (Nat.zero_le k)
    | cons a l ih => simpa using (hfg a).add ih
  have h2 := (h.sum (l.map g)).near (by
    intro a ha
    obtain ⟨i, _, rfl⟩ := List.mem_map.1 ha
    exact_mod_cast (hfg i).nonneg')
  rw [List.length_map] at h2
  have h3 := (h1.trans h2).idiv (m := (l.length : ℤ)) (by exact_mod_cast hl)
  unfold Arith.mean
  rw [List.length_map]
  show Near _ _ ((round64 (sum (l.map g) / round64 ((l.length : ℤ) : ℚ)) : ℚ) : ℝ)
  simpa using h3

theorem Near.abs_sub_le {K : ℕ} {A a : ℝ} (h : Near K A a) : |a - A| ≤ ((1 + uRound) ^ K - 1) * A := by
  have hlow : 2 - (1 + uRound) ^ K ≤ (1 - uRound) ^ K := by
    have h1 := one_add_mul_le_pow (a := -uRound) (by linarith [uRound_lt]) K
    have h2 := one_add_mul_le_pow (a := uRound) (by linarith [uRound_pos]) K
    rw [← sub_eq_add_neg] at h1
    linarith
  rw [abs_le]
  have h1 := h.lower
  have h2 := h.upper
  have h3 := mul_le_mul_of_nonneg_right hlow h.nonneg
  constructor <;> nlinarith

/-- Rounding errors of `f - s - t`. -/
theorem final_error_sub {K : ℕ} {F S T : ℝ} {f s t : ℚ} (hf : Near K F f) (hs : Near K S s) (ht : Near K T t) :
    |((round64 (round64 (f - s) - t) : ℚ) : ℝ) - (F - S - T)| ≤ ((1 + uRound) ^ (K + 2) - 1) * (F + S + T) := by
  have hu := uRound_pos
  have r1 := (Rat.cast_le (K := ℝ)).2 (round64_err (f - s))
  have r2 := (Rat.cast_le (K := ℝ)).2 (round64_err (round64 (f - s) - t))
  push_cast at r1 r2
  set g : ℝ := ((round64 (f - s) : ℚ) : ℝ) with hg
  set r : ℝ := ((round64 (round64 (f - s) - t) : ℚ) : ℝ) with hr
  have hf0 := hf.nonneg'
  have hs0 := hs.nonneg'
  have ht0 := ht.nonneg'
  have kf := hf.abs_sub_le
  have ks := hs.abs_sub_le
  have kt := ht.abs_sub_le
  set E := (1 + uRound) ^ K with hE
  have u1 : |g - (f - s)| ≤ uRound * (f + s) := by
    refine le_trans r1 ?_
    have : |(f : ℝ) - s| ≤ f + s := abs_le.2 ⟨by linarith, by linarith⟩
    unfold uRound
    linarith
  have hgabs : |g| ≤ (1 + uRound) * (f + s) := by
    have h1 := abs_le.1 u1
    rw [abs_le]
    constructor <;> nlinarith
  have u2 : |r - (g - t)| ≤ uRound * ((1 + uRound) * (f + s) + t) := by
    refine le_trans r2 ?_
    have : |g - (t : ℝ)| ≤ (1 + uRound) * (f + s) + t := by
      refine le_trans (abs_sub _ _) ?_
      rw [abs_of_nonneg ht0]
      linarith
    unfold uRound at *
    linarith
  have h1 := abs_le.1 u1
  have h2 := abs_le.1 u2
  have h3 := abs_le.1 kf
  have h4 := abs_le.1 ks
  have h5 := abs_le.1 kt
  have hFb : (f : ℝ) ≤ E * F := hf.upper
  have hSb : (s : ℝ) ≤ E * S := hs.upper
  have hTb : (t : ℝ) ≤ E * T := ht.upper
  have hpow : (1 + uRound) ^ (K + 2) = E * (1 + uRound) ^ 2 := by rw [hE, pow_add]
  have tot : uRound * (f + s) + uRound * ((1 + uRound) * (f + s) + t)
      ≤ (2 * uRound + uRound ^ 2) * (E * (F + S + T)) := by
    have e1 : uRound * (f + s) + uRound * ((1 + uRound) * (f + s) + t)
        ≤ (2 * uRound + uRound ^ 2) * (f + s + t) := by nlinarith [mul_nonneg hu.le ht0]
    refine le_trans e1 (mul_le_mul_of_nonneg_left (by linarith) (by positivity))
  rw [hpow]
  have goal : E * (1 + uRound) ^ 2 - 1 = (E - 1) + (2 * uRound + uRound ^ 2) * E := by ring
  rw [goal, abs_le]
  constructor <;> nlinarith

/-! ### The energy distance -/

theorem list_mean_le {ι : Type} (l : List ι) (hl : 0 < l.length) {f : ι → ℝ} {D : ℝ} (hf : ∀ i, f i ≤ D) :
    (l.map f).sum / l.length ≤ D := by
  have hl' : (0 : ℝ) < l.length := by exact_mod_cast hl
  rw [div_le_iff₀ hl']
  clear hl hl'
  induction l with
  | nil => simp
  | cons a l ih =>
    simp only [List.map_cons, List.sum_cons, List.length_cons]
    push_cast
    linarith [hf a]

theorem mean_combination_error (h : IsFloat64 sqrt sum dot) {ι κ μ : Type} {k K : ℕ} {a : List ι} {b : List κ}
    {c : List μ} (ha : 0 < a.length) (hb : 0 < b.length) (hc : 0 < c.length) {f : ι → ℝ} {g : κ → ℝ} {e : μ → ℝ}
    {f' : ι → ℚ} {g' : κ → ℚ} {e' : μ → ℚ} (hf : ∀ i, Near k (f i) (f' i)) (hg : ∀ i, Near k (g i) (g' i))
    (he : ∀ i, Near k (e i) (e' i)) {D : ℝ} (hfD : ∀ i, f i ≤ D) (hgD : ∀ i, g i ≤ D) (heD : ∀ i, e i ≤ D)
    (hKa : k + a.length + 6 ≤ K) (hKb : k + b.length + 6 ≤ K) (hKc : k + c.length + 6 ≤ K) :
    |((Arith.sub B (Arith.sub B (Arith.imul B 2 (Arith.mean B (a.map f'))) (Arith.mean B (b.map g')))
        (Arith.mean B (c.map e')) : ℚ) : ℝ)
      - (2 * ((a.map f).sum / a.length) - (b.map g).sum / b.length - (c.map e).sum / c.length)|
      ≤ ((1 + uRound) ^ K - 1) * (4 * D) ∧
    |2 * ((a.map f).sum / a.length) - (b.map g).sum / b.length - (c.map e).sum / c.length| ≤ 4 * D := by
  have A := Near.mean h a ha hf
  have A2 := (Near.round (b := round64 ((2 : ℤ) : ℚ) * Arith.mean B (a.map f')) (by
    rw [Rat.cast_mul, round64_int 2 (by norm_num)]
    exact A.const_mul (c := (((2 : ℤ) : ℚ) : ℝ)) (by norm_num)))
  have Bm := Near.mean h b hb hg
  have Cm := Near.mean h c hc he
  have key := final_error_sub (K := K - 2) (A2.mono (by omega)) (Bm.mono (by omega)) (Cm.mono (by omega))
  have e2 : (((2 : ℤ) : ℚ) : ℝ) = 2 := by norm_num
  rw [e2, show K - 2 + 2 = K by omega] at key
  have sA := list_mean_le a ha hfD
  have sB := list_mean_le b hb hgD
  have sC := list_mean_le c hc heD
  have nA := A.nonneg
  have nB := Bm.nonneg
  have nC := Cm.nonneg
  refine ⟨le_trans key (mul_le_mul_of_nonneg_left (by linarith) ?_), abs_le.2 ⟨by linarith, by linarith⟩⟩
  linarith [one_le_pow₀ (n := K) (show 1 ≤ 1 + uRound by linarith [uRound_pos])]

theorem crossMean_eq (X : Fin n → Fin p → ℝ) (Y : Fin m → Fin p → ℝ) :
    ((allPairs n m).map fun ij => Spec.dist 1 (X ij.1) (Y ij.2)).sum / (allPairs n m).length
      = Spec.crossMean 1 X Y := by
  rw [sum_allPairs fun i j => Spec.dist 1 (X i) (Y j), length_allPairs]
  unfold Spec.crossMean
  push_cast
  rfl

theorem pairMean_eq (X : Fin n → Fin p → ℝ) :
    ((upperPairs n).map fun ij => Spec.dist 1 (X ij.1) (X ij.2)).sum / (upperPairs n).length
      = Spec.pairMean 1 X := by
  have h1 := two_mul_sum_flatUpper (fun i j => Spec.dist 1 (X i) (X j)) fun i j => Spec.dist_symm _ _ _
  have h2 := two_mul_length_upperPairs (n := n)
  rw [modelFlatUpper_eq] at h1
  unfold Spec.pairMean
  rw [← h1, ← h2, mul_div_mul_left _ _ two_ne_zero]

/-- The samples as real numbers. -/
def toReal (x : Fin n → Fin p → ℚ) : Fin n → Fin p → ℝ := fun i k => (x i k : ℝ)

section Error

variable (h : IsFloat64 sqrt sum dot) (x : Fin n → Fin p → ℚ) (y : Fin m → Fin p → ℚ) {D : ℝ}
  (hxx : ∀ i j, Spec.dist 1 (toReal x i) (toReal x j) ≤ D) (hyy : ∀ i j, Spec.dist 1 (toReal y i) (toReal y j) ≤ D)
  (hxy : ∀ i j, Spec.dist 1 (toReal x i) (toReal y j) ≤ D)

include h hxx hyy hxy

theorem energyV_error (hn : 0 < n) (hm : 0 < m) :
    |((Arith.energyDistance B .v x y : ℚ) : ℝ) - Spec.energyV 1 (toReal x) (toReal y)|
      ≤ ((1 + uRound) ^ (max n m ^ 2 + p + 10) - 1) * (4 * D) ∧ |Spec.energyV 1 (toReal x) (toReal y)| ≤ 4 * D := by
  have bnd : ∀ a b : ℕ, a ≤ max n m → b ≤ max n m → distErr p + a * b + 6 ≤ max n m ^ 2 + p + 10 := by
    intro a b ha hb
    have := Nat.mul_le_mul ha hb
    unfold distErr
    rw [pow_two]
    omega
  have key := mean_combination_error h (k := distErr p) (K := max n m ^ 2 + p + 10) (a := allPairs n m)
    (b := allPairs n n) (c := allPairs m m)
    (by rw [length_allPairs]; exact Nat.mul_pos hn hm) (by rw [length_allPairs]; exact Nat.mul_pos hn hn)
    (by rw [length_allPairs]; exact Nat.mul_pos hm hm)
    (fun ij => Near.cdist h x y ij.1 ij.2) (fun ij => Near.cdist h x x ij.1 ij.2) (fun ij => Near.cdist h y y ij.1 ij.2)
    (fun ij => hxy ij.1 ij.2) (fun ij => hxx ij.1 ij.2) (fun ij => hyy ij.1 ij.2)
    (by rw [length_allPairs]; exact bnd _ _ (le_max_left _ _) (le_max_right _ _))
    (by rw [length_allPairs]; exact bnd _ _ (le_max_left _ _) (le_max_left _ _))
    (by rw [length_allPairs]; exact bnd _ _ (le_max_right _ _) (le_max_right _ _))
  have e1 := crossMean_eq (toReal x) (toReal y)
  have e2 := crossMean_eq (toReal x) (toReal x)
  have e3 := crossMean_eq (toReal y) (toReal y)
  unfold toReal at e1 e2 e3
  rw [e1, e2, e3] at key
  unfold Arith.energyDistance Arith.energyFromMatrices Spec.energyV
  simp only [flatAll_eq]
  exact key

theorem energyU_error (hn : 2 ≤ n) (hm : 2 ≤ m) :
    |((Arith.energyDistance B .u x y : ℚ) : ℝ) - Spec.energyU 1 (toReal x) (toReal y)|
      ≤ ((1 + uRound) ^ (max n m ^ 2 + p + 10) - 1) * (4 * D) ∧ |Spec.energyU 1 (toReal x) (toReal y)| ≤ 4 * D := by
  have bnd : ∀ a b : ℕ, a ≤ max n m → b ≤ max n m → distErr p + a * b + 6 ≤ max n m ^ 2 + p + 10 := by
    intro a b ha hb
    have := Nat.mul_le_mul ha hb
    unfold distErr
    rw [pow_two]
    omega
  have key := mean_combination_error h (k := distErr p) (K := max n m ^ 2 + p + 10) (a := allPairs n m)
    (b := upperPairs n) (c := upperPairs m)
    (by rw [length_allPairs]; exact Nat.mul_pos (by omega) (by omega)) (length_upperPairs_pos hn)
    (length_upperPairs_pos hm)
    (fun ij => Near.cdist h x y ij.1 ij.2) (fun ij => Near.cdist h x x ij.1 ij.2) (fun ij => Near.cdist h y y ij.1 ij.2)
    (fun ij => hxy ij.1 ij.2) (fun ij => hxx ij.1 ij.2) (fun ij => hyy ij.1 ij.2)
    (by rw [length_allPairs]; exact bnd _ _ (le_max_left _ _) (le_max_right _ _))
    (by have := length_upperPairs_le (n := n); have := bnd n n (le_max_left _ _) (le_max_left _ _); omega)
    (by have := length_upperPairs_le (n := m); have := bnd m m (le_max_right _ _) (le_max_right _ _); omega)
  have e1 := crossMean_eq (toReal x) (toReal y)
  have e2 := pairMean_eq (toReal x)
  have e3 := pairMean_eq (toReal y)
  unfold toReal at e1 e2 e3
  rw [e1, e2, e3] at key
  unfold Arith.energyDistance Arith.energyFromMatrices Spec.energyU
  simp only [flatAll_eq, arithFlatUpper_eq]
  exact key

end Error

theorem mul_error {r R c c' M : ℝ} {K L : ℕ} (hr : |r - R| ≤ ((1 + uRound) ^ K - 1) * M) (hR : |R| ≤ M)
    (hc : Near L c c') : |c' * r - c * R| ≤ ((1 + uRound) ^ (K + L) - 1) * (c * M) := by
  have hM : 0 ≤ M := (abs_nonneg _).trans hR
  have hcc := hc.abs_sub_le
  have hr' : |r| ≤ (1 + uRound) ^ K * M := by
    have := abs_add_le (r - R) R
    rw [sub_add_cancel] at this
    linarith
  have e : c' * r - c * R = (c' - c) * r + c * (r - R) := by ring
  rw [e]
  refine (abs_add_le _ _).trans ?_
  rw [abs_mul, abs_mul, abs_of_nonneg hc.nonneg, pow_add]
  have h1 := mul_le_mul hcc hr' (abs_nonneg _) ((abs_nonneg _).trans hcc)
  have h2 := mul_le_mul_of_nonneg_left hr hc.nonneg
  calc _ ≤ ((1 + uRound) ^ L - 1) * c * ((1 + uRound) ^ K * M) + c * (((1 + uRound) ^ K - 1) * M) := add_le_add h1 h2
    _ = _ := by ring

theorem round_error {r : ℚ} {R M : ℝ} {K : ℕ} (hr : |(r : ℝ) - R| ≤ ((1 + uRound) ^ K - 1) * M) (hR : |R| ≤ M) :
    |((round64 r : ℚ) : ℝ) - R| ≤ ((1 + uRound) ^ (K + 1) - 1) * M := by
  have e := (Rat.cast_le (K := ℝ)).2 (round64_err r)
  push_cast at e
  have hr' : |(r : ℝ)| ≤ (1 + uRound) ^ K * M := by
    have := abs_add_le ((r : ℝ) - R) R
    rw [sub_add_cancel] at this
    linarith
  have e' : |((round64 r : ℚ) : ℝ) - r| ≤ uRound * ((1 + uRound) ^ K * M) :=
    e.trans (by unfold uRound at *; linarith)
  have := abs_add_le (((round64 r : ℚ) : ℝ) - r) (r - R)
  rw [sub_add_sub_cancel] at this
  rw [pow_succ]
  linarith

/-- The coefficient of the test statistic. -/
theorem Near.coefficient (hn : 0 < n) (hm : 0 < m) :
    Near 4 ((n : ℝ) * m / (n + m))
      ((Arith.div B (Arith.ofInt B ((n : ℤ) * m)) (Arith.ofInt B ((n : ℤ) + m)) : ℚ) : ℝ) := by
  have h1 : Near 1 ((n : ℝ) * m) ((round64 (((n : ℤ) * m : ℤ) : ℚ) : ℚ) : ℝ) := by
    refine Near.round (k := 0) ?_
    push_cast
    exact Near.refl (by positivity)
  have h2 := h1.idiv (m := (n : ℤ) + m) (by positivity)
  push_cast at h2
  show Near 4 _ ((round64 (round64 (((n : ℤ) * m : ℤ) : ℚ) / round64 (((n : ℤ) + m : ℤ) : ℚ)) : ℚ) : ℝ)
  push_cast
  exact h2

theorem energyTest_error {s : EstStat} {x : Fin n → Fin p → ℚ} {y : Fin m → Fin p → ℚ} {E M : ℝ} {K : ℕ}
    (hn : 0 < n) (hm : 0 < m) (h : |((Arith.energyDistance B s x y : ℚ) : ℝ) - E| ≤ ((1 + uRound) ^ K - 1) * M)
    (hE : |E| ≤ M) :
    |((Arith.energyTestStatistic B s x y : ℚ) : ℝ) - n * m / (n + m) * E|
      ≤ ((1 + uRound) ^ (K + 5) - 1) * (n * m / (n + m) * M) := by
  have hc := Near.coefficient (sqrt := sqrt) (sum := sum) (dot := dot) hn hm
  have h1 := mul_error h hE hc
  have h2 : |(n : ℝ) * m / (n + m) * E| ≤ n * m / (n + m) * M := by
    rw [abs_mul, abs_of_nonneg hc.nonneg]
    exact mul_le_mul_of_nonneg_left hE hc.nonneg
  rw [← Rat.cast_mul] at h1
  exact round_error h1 h2

end Dcor

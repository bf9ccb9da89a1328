/-
Properties C49 and C50: integer samples.
-/
import Verif.Proofs.IntWrap
import Verif.Props.Algorithms

namespace Dcor.Props

open Finset

variable {n p l w : ℕ}

/-! ### C49 -/

/-- C49: on `int64` samples the fast methods that are not compiled return the defined values if the
three sums of distances fit in 64 bits, whether or not intermediate results do. `argsort` is any
function that sorts. -/
theorem C49_exact_when_terms_fit (m : FastMethod)
    (argsort : (Fin n → BitVec 64) → Equiv.Perm (Fin n))
    (hs : ∀ v : Fin n → BitVec 64, Monotone fun i => (v (argsort v i)).toInt)
    (x y : Fin n → BitVec 64) (hn : 3 < n)
    (h : FitsInt64 (∑ i, ∑ j, |(x i).toInt - (x j).toInt| * |(y i).toInt - (y j).toInt|))
    (hx : FitsInt64 (∑ i, ∑ j, |(x i).toInt - (x j).toInt|))
    (hy : FitsInt64 (∑ i, ∑ j, |(y i).toInt - (y j).toInt|)) :
    let a := absDiff fun i => ((x i).toInt : ℝ)
    let b := absDiff fun i => ((y i).toInt : ℝ)
    dcovSqrInt64 m argsort x y false = .ok (.fin (Spec.dcovSqr a b)) ∧
    dcovSqrInt64 m argsort x y true = .ok (.fin (Spec.uDcovSqr a b)) ∧
    statsSqrInt64 m argsort x y false = .ok ⟨.fin (Spec.dcovSqr a b), .fin (Spec.dcorSqr a b),
      .fin (Spec.dcovSqr a a), .fin (Spec.dcovSqr b b)⟩ ∧
    statsSqrInt64 m argsort x y true = .ok ⟨.fin (Spec.uDcovSqr a b), .fin (Spec.uDcorSqr a b),
      .fin (Spec.uDcovSqr a a), .fin (Spec.uDcovSqr b b)⟩ := by
  intro a b
  have h0 : 0 < n := by omega
  obtain ⟨π, e⟩ := int64Terms_eq m argsort hs x y h0 fun _ => hn
  have hr := int64ToReal_exact π _ _ h hx hy
  have ha : Symm a := absDiff_symm _
  have hb : Symm b := absDiff_symm _
  have ha0 : ∀ i, a i i = 0 := fun i => by simp [a, absDiff]
  have hb0 : ∀ i, b i i = 0 := fun i => by simp [b, absDiff]
  have va : varTerm (fun i => ((x i).toInt : ℝ)) = ∑ i, ∑ j, a i j * a i j := varTerm_eq h0 _
  have vb : varTerm (fun i => ((y i).toInt : ℝ)) = ∑ i, ∑ j, b i j * b i j := varTerm_eq h0 _
  refine ⟨?_, ?_, ?_, ?_⟩
  · unfold dcovSqrInt64
    rw [e, Except.ok_bind']
    exact biased_value _ _ _ h0 ha hb hr.mean hr.axis_prod hr.aTot hr.bTot
  · unfold dcovSqrInt64
    rw [e, Except.ok_bind']
    exact unbiased_value _ _ _ hn ha hb ha0 hb0 hr.mean hr.axis_prod hr.aTot hr.bTot
  · unfold statsSqrInt64
    rw [e, Except.ok_bind']
    dsimp only
    rw [biased_value _ _ _ h0 ha hb hr.mean hr.axis_prod hr.aTot hr.bTot,
      biased_value _ _ _ h0 ha ha va hr.axis_prod_aa hr.aTot hr.aTot,
      biased_value _ _ _ h0 hb hb vb hr.axis_prod_bb hr.bTot hr.bTot]
    simp only [Except.ok_bind', Except.pure_eq]
    congr 2
    exact ratio_eq _ _ _
  · unfold statsSqrInt64
    rw [e, Except.ok_bind']
    dsimp only
    rw [unbiased_value _ _ _ hn ha hb ha0 hb0 hr.mean hr.axis_prod hr.aTot hr.bTot,
      unbiased_value _ _ _ hn ha ha ha0 ha0 va hr.axis_prod_aa hr.aTot hr.aTot,
      unbiased_value _ _ _ hn hb hb hb0 hb0 vb hr.axis_prod_bb hr.bTot hr.bTot]
    simp only [Except.ok_bind', Except.pure_eq]
    congr 2
    exact ratio_eq _ _ _

/-- C49: a bound on the values that is enough: `4 n² M² < 2⁶³` with `|x i|, |y i| ≤ M`. -/
theorem C49_bounded_values (x y : Fin n → ℤ) (M : ℤ) (hM : 1 ≤ M) (hx : ∀ i, |x i| ≤ M)
    (hy : ∀ i, |y i| ≤ M) (hb : 4 * (n : ℤ) ^ 2 * M ^ 2 < 2 ^ 63) :
    FitsInt64 (∑ i, ∑ j, |x i - x j| * |y i - y j|) ∧
    FitsInt64 (∑ i, ∑ j, |x i - x j|) ∧ FitsInt64 (∑ i, ∑ j, |y i - y j|) := by
  have hd : ∀ z : Fin n → ℤ, (∀ i, |z i| ≤ M) → ∀ i j, |z i - z j| ≤ 2 * M := by
    intro z hz i j
    calc |z i - z j| ≤ |z i| + |z j| := abs_sub _ _
      _ ≤ 2 * M := by have := hz i; have := hz j; linarith
  have hsum : ∀ (f : Fin n → Fin n → ℤ) (c : ℤ), (∀ i j, f i j ≤ c) →
      ∑ i, ∑ j, f i j ≤ (n : ℤ) ^ 2 * c := by
    intro f c hf
    calc ∑ i, ∑ j, f i j ≤ ∑ _i : Fin n, ∑ _j : Fin n, c :=
          sum_le_sum fun i _ => sum_le_sum fun j _ => hf i j
      _ = (n : ℤ) ^ 2 * c := by simp; ring
  have hlin : ∀ z : Fin n → ℤ, (∀ i, |z i| ≤ M) → FitsInt64 (∑ i, ∑ j, |z i - z j|) := by
    intro z hz
    refine ⟨le_trans (by norm_num) (sum_nonneg fun i _ => sum_nonneg fun j _ => abs_nonneg _), ?_⟩
    refine lt_of_le_of_lt (hsum _ _ (hd z hz)) (lt_of_le_of_lt ?_ hb)
    nlinarith [sq_nonneg (n : ℤ), mul_nonneg (sq_nonneg (n : ℤ)) (by nlinarith : 0 ≤ 2 * M * (2 * M - 1))]
  refine ⟨⟨le_trans (by norm_num) (sum_nonneg fun i _ => sum_nonneg fun j _ =>
    mul_nonneg (abs_nonneg _) (abs_nonneg _)), ?_⟩, hlin x hx, hlin y hy⟩
  refine lt_of_le_of_lt (hsum _ (2 * M * (2 * M)) fun i j =>
    mul_le_mul (hd x hx i j) (hd y hy i j) (abs_nonneg _) (by linarith)) ?_
  refine lt_of_le_of_lt (le_of_eq ?_) hb
  ring

/-- A sample whose intermediate results wrap around (the sum of the products `x * y` is `4 * 10¹⁹`)
although the terms fit. -/
example : (∀ v : Fin 4 → BitVec 64, Monotone fun i =>
      (v (Tuple.sort (fun k => (v k).toInt) i)).toInt) ∧
    let x : Fin 4 → ℤ := ![3000000000, 3000000001, 3000000002, 3000000007]
    FitsInt64 (∑ i, ∑ j, |x i - x j| * |x i - x j|) ∧ FitsInt64 (∑ i, ∑ j, |x i - x j|) ∧
    ¬ FitsInt64 (∑ i, x i * x i) := by
  refine ⟨fun v => Tuple.monotone_sort fun k => (v k).toInt, ?_, ?_, ?_⟩ <;>
    · unfold FitsInt64
      decide

/-- C49, outside that range: on the `int64` sample `(0, 0, 0, 2³²)` both fast methods return a negative
squared distance covariance of the sample with itself, and the squared distance correlation `-5/3`
instead of 1. -/
theorem C49_overflow (m : FastMethod) (argsort : (Fin 4 → BitVec 64) → Equiv.Perm (Fin 4))
    (hs : ∀ v : Fin 4 → BitVec 64, Monotone fun i => (v (argsort v i)).toInt) :
    let x : Fin 4 → BitVec 64 := ![0, 0, 0, 4294967296]
    dcovSqrInt64 m argsort x x false = .ok (.fin (-(15 / 4) * 2 ^ 60)) ∧
    (∃ s, statsSqrInt64 m argsort x x false = .ok s ∧ s.correlationXY = .fin (-(5 / 3))) ∧
    Spec.dcovSqr (absDiff fun i => ((x i).toInt : ℝ)) (absDiff fun i => ((x i).toInt : ℝ))
      = 9 / 4 * 2 ^ 60 := by
  intro x
  have hX : (fun i => (x i).toInt) = ![0, 0, 0, 4294967296] := by
    funext i; fin_cases i <;> rfl
  have hXR : (fun i => ((x i).toInt : ℝ)) = ![0, 0, 0, 4294967296] := by
    funext i
    have := congrFun hX i
    rw [show (x i).toInt = _ from this]
    fin_cases i <;> simp
  obtain ⟨π, e⟩ := int64Terms_eq m argsort hs x x (by norm_num) fun _ => by norm_num
  rw [hX] at e
  have hrow : ∀ i, (wrap (∑ j, |(![0, 0, 0, 4294967296] : Fin 4 → ℤ) i
      - (![0, 0, 0, 4294967296] : Fin 4 → ℤ) j|)).toInt
      = (![4294967296, 4294967296, 4294967296, 12884901888] : Fin 4 → ℤ) i := by
    intro i
    rw [toInt_wrap] <;> revert i <;> decide
  have hmean : (wrap (∑ i, ∑ j, |(![0, 0, 0, 4294967296] : Fin 4 → ℤ) i
      - (![0, 0, 0, 4294967296] : Fin 4 → ℤ) j| * |(![0, 0, 0, 4294967296] : Fin 4 → ℤ) i
      - (![0, 0, 0, 4294967296] : Fin 4 → ℤ) j|)).toInt = 0 := by
    show (((∑ i, ∑ j, |(![0, 0, 0, 4294967296] : Fin 4 → ℤ) i
      - (![0, 0, 0, 4294967296] : Fin 4 → ℤ) j| * |(![0, 0, 0, 4294967296] : Fin 4 → ℤ) i
      - (![0, 0, 0, 4294967296] : Fin 4 → ℤ) j| : ℤ)) : BitVec 64).toInt = 0
    rw [BitVec.toInt_intCast]
    decide
  have htot : (wrap (∑ i, ∑ j, |(![0, 0, 0, 4294967296] : Fin 4 → ℤ) i
      - (![0, 0, 0, 4294967296] : Fin 4 → ℤ) j|)).toInt = 25769803776 := by
    rw [toInt_wrap] <;> decide
  obtain ⟨t, ht⟩ : ∃ t, t = ((exactTerms π ![0, 0, 0, 4294967296]
      ![0, 0, 0, 4294967296]).map wrap).int64ToReal := ⟨_, rfl⟩
  have h1 : ∀ i, t.aAxis i
      = ((![4294967296, 4294967296, 4294967296, 12884901888] : Fin 4 → ℤ) (π i) : ℝ) := fun i => by
    rw [ht]; exact congrArg (Int.cast : ℤ → ℝ) (hrow (π i))
  have h2 : ∀ i, t.bAxis i
      = ((![4294967296, 4294967296, 4294967296, 12884901888] : Fin 4 → ℤ) (π i) : ℝ) := fun i => by
    rw [ht]; exact congrArg (Int.cast : ℤ → ℝ) (hrow (π i))
  have hsq : ∑ i, ((![4294967296, 4294967296, 4294967296, 12884901888] : Fin 4 → ℤ) (π i) : ℝ)
      * ((![4294967296, 4294967296, 4294967296, 12884901888] : Fin 4 → ℤ) (π i) : ℝ)
      = 12 * 2 ^ 64 := by
    rw [Equiv.sum_comp π fun i =>
      ((![4294967296, 4294967296, 4294967296, 12884901888] : Fin 4 → ℤ) i : ℝ)
        * ((![4294967296, 4294967296, 4294967296, 12884901888] : Fin 4 → ℤ) i : ℝ)]
    simp only [Fin.sum_univ_four, Matrix.cons_val]
    norm_num
  have hm0 : t.meanProd = 0 := by
    rw [ht]; exact (congrArg (Int.cast : ℤ → ℝ) hmean).trans (by norm_num)
  have ha0 : t.aTotal = 25769803776 := by
    rw [ht]; exact (congrArg (Int.cast : ℤ → ℝ) htot).trans (by norm_num)
  have hb0 : t.bTotal = 25769803776 := by
    rw [ht]; exact (congrArg (Int.cast : ℤ → ℝ) htot).trans (by norm_num)
  have hv : varTerm (fun i => ((x i).toInt : ℝ)) = 6 * 2 ^ 64 := by
    rw [hXR, varTerm_eq (by norm_num)]
    simp only [Fin.sum_univ_four, Matrix.cons_val]
    norm_num
  have hcov : ∀ k, dcovFromTerms k .numpy .numpy t.meanProd t.aAxis t.aTotal t.bAxis t.bTotal false
      = .ok (.fin (-(15 / 4) * 2 ^ 60)) := by
    intro k
    rw [dcovFromTerms_biased _ _ _ (by norm_num), hm0, ha0, hb0]
    simp only [h1, h2, hsq]
    norm_num
  have hvx : dcovFromTerms .numpy .numpy .numpy (6 * 2 ^ 64) t.aAxis t.aTotal t.aAxis t.aTotal false
      = .ok (.fin (9 / 4 * 2 ^ 60)) := by
    rw [dcovFromTerms_biased _ _ _ (by norm_num), ha0]
    simp only [h1, hsq]
    norm_num
  have hvy : dcovFromTerms .numpy .numpy .numpy (6 * 2 ^ 64) t.bAxis t.bTotal t.bAxis t.bTotal false
      = .ok (.fin (9 / 4 * 2 ^ 60)) := by
    rw [dcovFromTerms_biased _ _ _ (by norm_num), hb0]
    simp only [h2, hsq]
    norm_num
  refine ⟨?_, ?_, ?_⟩
  · unfold dcovSqrInt64
    rw [e, Except.ok_bind']
    dsimp only
    rw [← ht]
    exact hcov _
  · unfold statsSqrInt64
    rw [e, Except.ok_bind']
    dsimp only
    rw [← ht, hv, hcov, hvx, hvy]
    simp only [Except.ok_bind', Except.pure_eq]
    refine ⟨_, rfl, ?_⟩
    dsimp only
    rw [ratio_eq]
    congr 1
    unfold Spec.ratio
    rw [if_neg (by norm_num), abs_mul_self, Real.sqrt_mul_self (by norm_num)]
    norm_num
  · have hsym : Symm (absDiff (![0, 0, 0, 4294967296] : Fin 4 → ℝ)) := absDiff_symm _
    rw [hXR, Spec.dcovSqr_eq_terms _ _ hsym hsym (by norm_num)]
    simp only [absDiff, Fin.sum_univ_four, Matrix.cons_val]
    norm_num

/-- C49: distances between `int64` points of libraries other than NumPy are exact if the sum of the
squared differences fits in 64 bits. -/
theorem C49_naive_distances (x : Fin n → Fin p → BitVec 64) (y : Fin l → Fin p → BitVec 64)
    (k : Fin l) (i : Fin n)
    (h : FitsInt64 (∑ c, ((x i c).toInt - (y k c).toInt) ^ 2)) :
    cdistNaiveInt64 x y k i = .fin (Real.sqrt (∑ c, ((x i c).toInt - (y k c).toInt : ℝ) ^ 2)) := by
  have e : ∑ c, (x i c - y k c) ^ 2 = wrap (∑ c, ((x i c).toInt - (y k c).toInt) ^ 2) := by
    simp only [map_sum, map_pow, map_sub, wrap_toInt]
  unfold cdistNaiveInt64 powHalfInt64
  rw [e, toInt_wrap h.1 h.2, if_neg (not_lt.2 (sum_nonneg fun _ _ => sq_nonneg _))]
  push_cast
  rfl

example : FitsInt64 (∑ c : Fin 2, ((![1000000000, -7] : Fin 2 → ℤ) c - (![-1000000000, 5] : Fin 2 → ℤ) c) ^ 2) := by
  unfold FitsInt64; decide

/-- C49, outside that range: distance 0 between different points, and NaN. -/
theorem C49_naive_overflow :
    cdistNaiveInt64 (n := 1) (l := 1) (p := 1) (fun _ _ => 4294967296) (fun _ _ => 0) 0 0 = .fin 0 ∧
    cdistNaiveInt64 (n := 1) (l := 1) (p := 1) (fun _ _ => 3037000500) (fun _ _ => 0) 0 0 = .nan := by
  constructor
  · unfold cdistNaiveInt64 powHalfInt64
    have : (∑ _c : Fin 1, ((4294967296 : BitVec 64) - 0) ^ 2).toInt = 0 := by decide
    simp only [this]
    simp
  · unfold cdistNaiveInt64 powHalfInt64
    have : (∑ _c : Fin 1, ((3037000500 : BitVec 64) - 0) ^ 2).toInt < 0 := by decide
    simp only [if_pos this]

/-! ### C50 -/

private theorem toNat_natCast (w m : ℕ) : ((m : ℕ) : BitVec w).toNat = m % 2 ^ w := by
  show (BitVec.ofNat w m).toNat = _
  rw [BitVec.toNat_ofNat]

/-- C50, the part that holds: the distances are right if the squares of the differences are less than
`2 ^ w` and their sums less than `2 ^ 64`. Missing: other samples, see `C50_fails`. -/
theorem C50_unsigned_distances_partial (hw : w ≤ 64) (x : Fin n → Fin p → BitVec w)
    (exponent : ℝ)
    (hsq : ∀ i k c, (((x i c).toNat : ℤ) - (x k c).toNat) ^ 2 < 2 ^ w)
    (hsum : ∀ i k, ∑ c, (((x i c).toNat : ℤ) - (x k c).toNat) ^ 2 < 2 ^ 64) (k i : Fin n) :
    pairwiseDistancesUnsigned x exponent k i
      = Spec.dist exponent (fun c => ((x k c).toNat : ℝ)) (fun c => ((x i c).toNat : ℝ)) := by
  obtain ⟨z, hz⟩ : ∃ z : Fin p → ℕ, ∀ c, (z c : ℤ) = (((x i c).toNat : ℤ) - (x k c).toNat) ^ 2 :=
    ⟨fun c => ((((x i c).toNat : ℤ) - (x k c).toNat) ^ 2).toNat, fun c =>
      Int.toNat_of_nonneg (sq_nonneg _)⟩
  have hcast : ∀ v : BitVec w, ((v.toNat : ℤ) : BitVec w) = v := fun v => by
    apply BitVec.eq_of_toNat_eq
    rw [Int.cast_natCast, toNat_natCast, Nat.mod_eq_of_lt v.isLt]
  have h1 : ∀ c, (x i c - x k c) ^ 2 = ((z c : ℕ) : BitVec w) := fun c => by
    have := congrArg (Int.cast : ℤ → BitVec w) (hz c)
    rw [Int.cast_natCast, Int.cast_pow, Int.cast_sub, hcast, hcast] at this
    exact this.symm
  have h2 : ∀ c, ((x i c - x k c) ^ 2).setWidth 64 = ((z c : ℕ) : BitVec 64) := fun c => by
    have hlt : z c < 2 ^ w := by have := hsq i k c; rw [← hz c] at this; exact_mod_cast this
    have hlt' : z c < 2 ^ 64 := lt_of_lt_of_le hlt (Nat.pow_le_pow_right (by norm_num) hw)
    rw [h1]
    apply BitVec.eq_of_toNat_eq
    rw [BitVec.toNat_setWidth, toNat_natCast, toNat_natCast, Nat.mod_eq_of_lt hlt]
  have h3 : (sumUnsigned fun c => (x i c - x k c) ^ 2).toNat = ∑ c, z c := by
    unfold sumUnsigned
    simp only [h2]
    rw [← Nat.cast_sum, toNat_natCast, Nat.mod_eq_of_lt]
    have := hsum i k
    simp only [← hz] at this
    exact_mod_cast this
  have hzR : ∀ c, (z c : ℝ) = ((x k c).toNat - (x i c).toNat : ℝ) ^ 2 := fun c => by
    have := congrArg (Int.cast : ℤ → ℝ) (hz c)
    push_cast at this
    rw [this]; ring
  unfold pairwiseDistancesUnsigned cdistNaiveUnsigned
  rw [h3, Spec.dist_eq_rpow]
  push_cast
  simp only [hzR]

example : (8 : ℕ) ≤ 64 ∧ let x : Fin 3 → Fin 2 → BitVec 8 := ![![250, 3], ![255, 0], ![240, 12]]
    (∀ i k c, (((x i c).toNat : ℤ) - (x k c).toNat) ^ 2 < 2 ^ 8) ∧
    ∀ i k, ∑ c, (((x i c).toNat : ℤ) - (x k c).toNat) ^ 2 < 2 ^ 64 := by
  decide

/-- C50 fails: the distance between the `uint8` points 0 and 16 is 0 instead of 16. -/
theorem C50_fails :
    pairwiseDistancesUnsigned (n := 2) (p := 1) (w := 8) ![![0], ![16]] 1 0 1 = 0 ∧
    Spec.dist (p := 1) 1 (fun _ => 0) (fun _ => 16) = 16 := by
  constructor
  · unfold pairwiseDistancesUnsigned cdistNaiveUnsigned
    have : (sumUnsigned fun c : Fin 1 => ((![![0], ![16]] : Fin 2 → Fin 1 → BitVec 8) 1 c
        - (![![0], ![16]] : Fin 2 → Fin 1 → BitVec 8) 0 c) ^ 2).toNat = 0 := by decide
    rw [this]
    norm_num
  · rw [Spec.dist_one_scalar]
    norm_num

/-! ### C19 -/

/-- C19 is false for mergesort on `int64` arrays too: with exactly three observations the unbiased statistics raise
`ZeroDivisionError`, whatever the samples. -/
theorem C19_int64_mergesort_crashes (argsort : (Fin 3 → BitVec 64) → Equiv.Perm (Fin 3))
    (hs : ∀ v : Fin 3 → BitVec 64, Monotone fun i => (v (argsort v i)).toInt) (x y : Fin 3 → BitVec 64) :
    dcovSqrInt64 .mergesort argsort x y true = .error .zeroDivisionError ∧
    statsSqrInt64 .mergesort argsort x y true = .error .zeroDivisionError := by
  obtain ⟨π, e⟩ := int64Terms_eq .mergesort argsort hs x y (by norm_num) (fun h => by cases h)
  have h3 : ((3 : ℕ) : ℤ) ≠ 0 := by norm_num
  have hz : ∀ a : FP ℝ, npDiv .python a (((3 : ℕ) : ℤ) - 3) = .error .zeroDivisionError := by
    intro a
    unfold npDiv
    simp
  constructor
  · unfold dcovSqrInt64 dcovFromTerms
    rw [e, Except.ok_bind']
    simp only [FastMethod.meanKind]
    rw [npDiv_ok _ _ h3, npDiv_ok _ _ h3]
    simp only [Except.ok_bind', if_true]
    rw [hz]
    rfl
  · unfold statsSqrInt64 dcovFromTerms
    rw [e, Except.ok_bind']
    simp only [FastMethod.meanKind]
    rw [npDiv_ok _ _ h3, npDiv_ok _ _ h3]
    simp only [Except.ok_bind', if_true]
    rw [hz]
    rfl

/-- A function that sorts exists. -/
example : ∃ argsort : (Fin 3 → BitVec 64) → Equiv.Perm (Fin 3),
    ∀ v : Fin 3 → BitVec 64, Monotone fun i => (v (argsort v i)).toInt :=
  ⟨fun v => Tuple.sort fun i => (v i).toInt, fun v => Tuple.monotone_sort fun i => (v i).toInt⟩

end Dcor.Props

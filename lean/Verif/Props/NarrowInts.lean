/-
Property C112: samples of short integers and of booleans.
-/
import Verif.Proofs.NarrowInt
import Verif.Props.Integers
import Mathlib.Data.Fintype.Perm

namespace Dcor.Props

open Finset

variable {n w : ℕ}

/-- The four results from the exact terms. -/
private theorem int64_values (m : FastMethod) (π : Equiv.Perm (Fin n)) (X Y : Fin n → ℤ) (hn : 3 < n)
    (h : FitsInt64 (∑ i, ∑ j, |X i - X j| * |Y i - Y j|))
    (hx : FitsInt64 (∑ i, ∑ j, |X i - X j|)) (hy : FitsInt64 (∑ i, ∑ j, |Y i - Y j|)) :
    let a := absDiff fun i => (X i : ℝ)
    let b := absDiff fun i => (Y i : ℝ)
    let t : Except PyErr (CoreTerms (BitVec 64) n) := .ok ((exactTerms π X Y).map wrap)
    dcovSqrOfInt64 m t false = .ok (.fin (Spec.dcovSqr a b)) ∧
    dcovSqrOfInt64 m t true = .ok (.fin (Spec.uDcovSqr a b)) ∧
    statsSqrOfInt64 m t X Y false = .ok ⟨.fin (Spec.dcovSqr a b), .fin (Spec.dcorSqr a b),
      .fin (Spec.dcovSqr a a), .fin (Spec.dcovSqr b b)⟩ ∧
    statsSqrOfInt64 m t X Y true = .ok ⟨.fin (Spec.uDcovSqr a b), .fin (Spec.uDcorSqr a b),
      .fin (Spec.uDcovSqr a a), .fin (Spec.uDcovSqr b b)⟩ := by
  intro a b t
  have h0 : 0 < n := by omega
  have hr := int64ToReal_exact π _ _ h hx hy
  have ha : Symm a := absDiff_symm _
  have hb : Symm b := absDiff_symm _
  have ha0 : ∀ i, a i i = 0 := fun i => by simp [a, absDiff]
  have hb0 : ∀ i, b i i = 0 := fun i => by simp [b, absDiff]
  have va : varTerm (fun i => (X i : ℝ)) = ∑ i, ∑ j, a i j * a i j := varTerm_eq h0 _
  have vb : varTerm (fun i => (Y i : ℝ)) = ∑ i, ∑ j, b i j * b i j := varTerm_eq h0 _
  refine ⟨?_, ?_, ?_, ?_⟩
  · exact biased_value _ _ _ h0 ha hb hr.mean hr.axis_prod hr.aTot hr.bTot
  · exact unbiased_value _ _ _ hn ha hb ha0 hb0 hr.mean hr.axis_prod hr.aTot hr.bTot
  · unfold statsSqrOfInt64
    rw [Except.ok_bind']
    dsimp only
    rw [biased_value _ _ _ h0 ha hb hr.mean hr.axis_prod hr.aTot hr.bTot,
      biased_value _ _ _ h0 ha ha va hr.axis_prod_aa hr.aTot hr.aTot,
      biased_value _ _ _ h0 hb hb vb hr.axis_prod_bb hr.bTot hr.bTot]
    simp only [Except.ok_bind', Except.pure_eq]
    congr 2
    exact ratio_eq _ _ _
  · unfold statsSqrOfInt64
    rw [Except.ok_bind']
    dsimp only
    rw [unbiased_value _ _ _ hn ha hb ha0 hb0 hr.mean hr.axis_prod hr.aTot hr.bTot,
      unbiased_value _ _ _ hn ha ha ha0 ha0 va hr.axis_prod_aa hr.aTot hr.aTot,
      unbiased_value _ _ _ hn hb hb hb0 hb0 vb hr.axis_prod_bb hr.bTot hr.bTot]
    simp only [Except.ok_bind', Except.pure_eq]
    congr 2
    exact ratio_eq _ _ _

private theorem fits_of_bound (X Y : Fin n → ℤ) (M N : ℤ) (hM : 1 ≤ M) (hN : 1 ≤ N)
    (hx : ∀ i, |X i| ≤ M) (hy : ∀ i, |Y i| ≤ N) (hb : 4 * (n : ℤ) ^ 2 * (M * N) < 2 ^ 63) :
    FitsInt64 (∑ i, ∑ j, |X i - X j| * |Y i - Y j|) ∧
    FitsInt64 (∑ i, ∑ j, |X i - X j|) ∧ FitsInt64 (∑ i, ∑ j, |Y i - Y j|) := by
  have hd : ∀ (z : Fin n → ℤ) (K : ℤ), (∀ i, |z i| ≤ K) → ∀ i j, |z i - z j| ≤ 2 * K := by
    intro z K hz i j
    calc |z i - z j| ≤ |z i| + |z j| := abs_sub _ _
      _ ≤ 2 * K := by have := hz i; have := hz j; linarith
  have hsum : ∀ (f : Fin n → Fin n → ℤ) (c : ℤ), (∀ i j, 0 ≤ f i j) → (∀ i j, f i j ≤ c) →
      c ≤ 4 * (M * N) → FitsInt64 (∑ i, ∑ j, f i j) := by
    intro f c hf0 hf hc
    refine ⟨le_trans (by norm_num) (sum_nonneg fun i _ => sum_nonneg fun j _ => hf0 i j),
      lt_of_le_of_lt ?_ hb⟩
    calc ∑ i, ∑ j, f i j ≤ ∑ _i : Fin n, ∑ _j : Fin n, c :=
          sum_le_sum fun i _ => sum_le_sum fun j _ => hf i j
      _ = (n : ℤ) ^ 2 * c := by simp; ring
      _ ≤ 4 * (n : ℤ) ^ 2 * (M * N) := by
          have := mul_le_mul_of_nonneg_left hc (sq_nonneg (n : ℤ))
          linarith
  have hMN : M ≤ M * N := by nlinarith
  have hNM : N ≤ M * N := by nlinarith
  refine ⟨hsum _ (2 * M * (2 * N)) (fun i j => mul_nonneg (abs_nonneg _) (abs_nonneg _))
    (fun i j => mul_le_mul (hd X M hx i j) (hd Y N hy i j) (abs_nonneg _) (by linarith))
    (le_of_eq (by ring)), ?_, ?_⟩
  · exact hsum _ (2 * M) (fun i j => abs_nonneg _) (hd X M hx) (by linarith)
  · exact hsum _ (2 * N) (fun i j => abs_nonneg _) (hd Y N hy) (by linarith)

/-- C112, the part that holds: on samples of `int8`, `int16` or `int32` numbers the fast methods return
the defined values if the absolute values are at most `M` and `N` and the largest intermediate result,
`4 (n - 1) M N` for AVL and `3 n² M N / 2` for mergesort, is less than `2 ^ (w - 1)`. `argsort` is any
function that sorts. Missing: other samples, see `C112_labels_fail` and `C112_mergesort_fails`, and
booleans, see `C112_booleans_fail`. -/
theorem C112_short_integers_partial (m : FastMethod) (hw : w = 8 ∨ w = 16 ∨ w = 32)
    (argsort : (Fin n → BitVec w) → Equiv.Perm (Fin n))
    (hs : ∀ v : Fin n → BitVec w, Monotone fun i => (v (argsort v i)).toInt)
    (x y : Fin n → BitVec w) (hn : 3 < n) (M N : ℤ) (hM : 1 ≤ M) (hN : 1 ≤ N)
    (hx : ∀ i, |(x i).toInt| ≤ M) (hy : ∀ i, |(y i).toInt| ≤ N)
    (hb : match m with
      | .avl => 4 * ((n : ℤ) - 1) * (M * N) < 2 ^ (w - 1)
      | .mergesort => 3 * (n : ℤ) ^ 2 * (M * N) < 2 ^ w) :
    let a := absDiff fun i => ((x i).toInt : ℝ)
    let b := absDiff fun i => ((y i).toInt : ℝ)
    dcovSqrSigned m argsort x y false = .ok (.fin (Spec.dcovSqr a b)) ∧
    dcovSqrSigned m argsort x y true = .ok (.fin (Spec.uDcovSqr a b)) ∧
    statsSqrSigned m argsort x y false = .ok ⟨.fin (Spec.dcovSqr a b), .fin (Spec.dcorSqr a b),
      .fin (Spec.dcovSqr a a), .fin (Spec.dcovSqr b b)⟩ ∧
    statsSqrSigned m argsort x y true = .ok ⟨.fin (Spec.uDcovSqr a b), .fin (Spec.uDcorSqr a b),
      .fin (Spec.uDcovSqr a a), .fin (Spec.uDcovSqr b b)⟩ := by
  intro a b
  have hn' : (4 : ℤ) ≤ n := by exact_mod_cast hn
  have hMN : 1 ≤ M * N := by nlinarith
  have hw2 : 2 ≤ w := by omega
  have hw64 : w ≤ 64 := by omega
  have hw32 : w ≤ 32 := by omega
  obtain ⟨π, e, hbig⟩ : ∃ π : Equiv.Perm (Fin n), signedTerms m argsort x y
      = .ok ((exactTerms π (fun i => (x i).toInt) (fun i => (y i).toInt)).map wrap) ∧
      4 * (n : ℤ) ^ 2 * (M * N) < 2 ^ 63 := by
    cases m with
    | avl =>
      refine ⟨Equiv.refl _, avlTerms_signed (by omega) hw64 argsort hs x y hn M N hM hN hx hy hb, ?_⟩
      have hp : (2 : ℤ) ^ (w - 1) ≤ 2 ^ 31 := pow_le_pow_right₀ (by norm_num) (by omega)
      have h1 : 4 * ((n : ℤ) - 1) * (M * N) < 2 ^ 31 := lt_of_lt_of_le hb hp
      have h2 : (n : ℤ) - 1 < 2 ^ 29 := by nlinarith
      have h3 : (n : ℤ) ^ 2 ≤ 2 * ((n : ℤ) - 1) ^ 2 := by nlinarith
      have h4 : ((n : ℤ) - 1) * (4 * ((n : ℤ) - 1) * (M * N)) ≤ 2 ^ 29 * 2 ^ 31 :=
        mul_le_mul h2.le h1.le (mul_nonneg (by linarith) (by linarith)) (by norm_num)
      nlinarith
    | mergesort =>
      refine ⟨argsort x, mergesortTerms_signed hw2 hw64 argsort hs x y (by omega) M N hM hN hx hy hb,
        ?_⟩
      have hp : (2 : ℤ) ^ w ≤ 2 ^ 32 := pow_le_pow_right₀ (by norm_num) hw32
      have hb' : 3 * (n : ℤ) ^ 2 * (M * N) < 2 ^ w := hb
      linarith
  obtain ⟨f1, f2, f3⟩ := fits_of_bound _ _ M N hM hN hx hy hbig
  have hv := int64_values m π (fun i => (x i).toInt) (fun i => (y i).toInt) hn f1 f2 f3
  unfold dcovSqrSigned statsSqrSigned
  rw [e]
  exact hv

/-- Two columns of 32 labels `0` and `1`, and two samples for mergesort. -/
example : (∀ v : Fin 32 → BitVec 8, Monotone fun i =>
      (v (Tuple.sort (fun k => (v k).toInt) i)).toInt) ∧
    (let x : Fin 32 → BitVec 8 := fun i => if (i : ℕ) % 2 = 0 then 0 else 1
     let y : Fin 32 → BitVec 8 := fun i => if (i : ℕ) % 3 = 0 then 0 else 1
     (∀ i, |(x i).toInt| ≤ 1) ∧ (∀ i, |(y i).toInt| ≤ 1) ∧
     4 * (((32 : ℕ) : ℤ) - 1) * (1 * 1) < 2 ^ (8 - 1)) ∧
    let x : Fin 5 → BitVec 16 := ![-20, 13, 5, 5, 0]
    let y : Fin 5 → BitVec 16 := ![7, -30, 2, 28, 1]
    (∀ i, |(x i).toInt| ≤ 20) ∧ (∀ i, |(y i).toInt| ≤ 30) ∧
    3 * ((5 : ℕ) : ℤ) ^ 2 * (20 * 30) < 2 ^ 16 := by
  refine ⟨fun v => Tuple.monotone_sort fun k => (v k).toInt, ?_, ?_⟩ <;> decide

/-- The results if the sum of products is `D`. -/
private theorem values_of_mean (m : FastMethod) (π : Equiv.Perm (Fin n)) (X Y : Fin n → ℤ)
    (hn : 0 < n) (D : BitVec 64)
    (hx : FitsInt64 (∑ i, ∑ j, |X i - X j|)) (hy : FitsInt64 (∑ i, ∑ j, |Y i - Y j|)) :
    let a := absDiff fun i => (X i : ℝ)
    let b := absDiff fun i => (Y i : ℝ)
    let t : CoreTerms (BitVec 64) n := { (exactTerms π X Y).map wrap with meanProd := D }
    let c := Spec.dcovSqr a b + ((D.toInt - ∑ i, ∑ j, |X i - X j| * |Y i - Y j| : ℤ) : ℝ) / n ^ 2
    dcovSqrOfInt64 m (.ok t) false = .ok (.fin c) ∧
    statsSqrOfInt64 m (.ok t) X Y false = .ok ⟨.fin c,
      .fin (Spec.ratio c (Spec.dcovSqr a a) (Spec.dcovSqr b b)),
      .fin (Spec.dcovSqr a a), .fin (Spec.dcovSqr b b)⟩ := by
  intro a b t c
  have ha : Symm a := absDiff_symm _
  have hb : Symm b := absDiff_symm _
  have va : varTerm (fun i => (X i : ℝ)) = ∑ i, ∑ j, a i j * a i j := varTerm_eq hn _
  have vb : varTerm (fun i => (Y i : ℝ)) = ∑ i, ∑ j, b i j * b i j := varTerm_eq hn _
  have hax : ∀ (z : Fin n → ℤ), FitsInt64 (∑ i, ∑ j, |z i - z j|) → ∀ i,
      ((wrap (∑ j, |z i - z j|)).toInt : ℝ) = ∑ j, absDiff (fun i => (z i : ℝ)) i j := by
    intro z hz i
    have hf := FitsInt64.of_le (sum_nonneg fun _ _ => abs_nonneg _)
      (single_le_sum (f := fun i => ∑ j, |z i - z j|)
        (fun _ _ => sum_nonneg fun _ _ => abs_nonneg _) (mem_univ i)) hz
    rw [toInt_wrap hf.1 hf.2]
    push_cast
    rfl
  have htot : ∀ (z : Fin n → ℤ), FitsInt64 (∑ i, ∑ j, |z i - z j|) →
      ((wrap (∑ i, ∑ j, |z i - z j|)).toInt : ℝ)
        = ∑ i, ∑ j, absDiff (fun i => (z i : ℝ)) i j := by
    intro z hz
    rw [toInt_wrap hz.1 hz.2]
    push_cast
    rfl
  have hA : ∀ i, t.int64ToReal.aAxis i = ∑ j, a (π i) j := fun i => hax X hx (π i)
  have hB : ∀ i, t.int64ToReal.bAxis i = ∑ j, b (π i) j := fun i => hax Y hy (π i)
  have hAt : t.int64ToReal.aTotal = ∑ i, ∑ j, a i j := htot X hx
  have hBt : t.int64ToReal.bTotal = ∑ i, ∑ j, b i j := htot Y hy
  have hAB : ∀ (f g : Fin n → ℝ), ∑ i, f (π i) * g (π i) = ∑ i, f i * g i := fun f g =>
    Equiv.sum_comp π fun i => f i * g i
  have hmean : ((∑ i, ∑ j, |X i - X j| * |Y i - Y j| : ℤ) : ℝ) = ∑ i, ∑ j, a i j * b i j := by
    push_cast
    rfl
  have hcov : ∀ k, dcovFromTerms k .numpy .numpy t.int64ToReal.meanProd t.int64ToReal.aAxis
      t.int64ToReal.aTotal t.int64ToReal.bAxis t.int64ToReal.bTotal false = .ok (.fin c) := by
    intro k
    rw [dcovFromTerms_biased _ _ _ hn, hAt, hBt]
    simp only [hA, hB]
    rw [hAB (fun i => ∑ j, a i j) fun i => ∑ j, b i j]
    congr 2
    show _ = Spec.dcovSqr a b + _
    rw [Spec.dcovSqr_eq_terms a b ha hb hn, Int.cast_sub, hmean]
    show (D.toInt : ℝ) / n ^ 2 - _ + _ = _
    ring
  refine ⟨hcov _, ?_⟩
  unfold statsSqrOfInt64
  rw [Except.ok_bind']
  dsimp only
  rw [hcov, biased_value _ _ _ hn ha ha va (by simp only [hA]; exact hAB (fun i => ∑ j, a i j) fun i => ∑ j, a i j) hAt hAt,
    biased_value _ _ _ hn hb hb vb (by simp only [hB]; exact hAB (fun i => ∑ j, b i j) fun i => ∑ j, b i j) hBt hBt]
  simp only [Except.ok_bind', Except.pure_eq]
  congr 2
  exact ratio_eq _ _ _

/-- The column with 32 labels `0` and one label `1`. -/
def oneOf33 : Fin 33 → BitVec 8 := fun i => if i = Fin.last 32 then 1 else 0

private def ind33 : Fin 33 → ℤ := fun i => if i = Fin.last 32 then 1 else 0

private theorem oneOf33_toInt (i : Fin 33) : (oneOf33 i).toInt = ind33 i := by
  unfold oneOf33 ind33
  split_ifs <;> rfl

private theorem ind33_wrapW (i : Fin 33) : wrapW 8 (ind33 i) = oneOf33 i := by
  rw [← oneOf33_toInt, wrapW_toInt]

private theorem last_of_mono (σ : Equiv.Perm (Fin 33)) (h : Monotone fun i => ind33 (σ i)) :
    σ (Fin.last 32) = Fin.last 32 := by
  have h1 := h (Fin.le_last (σ.symm (Fin.last 32)))
  simp only [Equiv.apply_symm_apply] at h1
  by_contra hne
  unfold ind33 at h1
  rw [if_pos rfl, if_neg hne] at h1
  norm_num at h1

private theorem ne_last_iff (τ : Equiv.Perm (Fin 33)) (hτ : τ (Fin.last 32) = Fin.last 32)
    (q : Fin 33) : τ.symm q < τ.symm (Fin.last 32) ↔ q ≠ Fin.last 32 := by
  have hl : τ.symm (Fin.last 32) = Fin.last 32 := by rw [Equiv.symm_apply_eq, hτ]
  rw [hl, Fin.lt_last_iff_ne_last, not_iff_not, Equiv.symm_apply_eq, hτ]

private theorem G_ones (τ : Equiv.Perm (Fin 33)) (hτ : τ (Fin.last 32) = Fin.last 32) :
    narrowG (.signed 8) τ (fun _ => (NarrowType.signed 8).one) (Fin.last 32) = -224 := by
  unfold narrowG
  simp only [ne_last_iff τ hτ, Fin.lt_last_iff_ne_last, and_self]
  decide

private theorem G_ind (τ : Equiv.Perm (Fin 33)) (hτ : τ (Fin.last 32) = Fin.last 32) (r : Fin 33) :
    narrowG (.signed 8) τ oneOf33 r = if r = Fin.last 32 then 0 else 1 := by
  have hsum : ∀ (p : Fin 33 → Prop) [DecidablePred p],
      (∑ q, if p q then ind33 q else 0) = if p (Fin.last 32) then 1 else 0 := by
    intro p _
    have : ∀ q, (if p q then ind33 q else 0)
        = if q = Fin.last 32 then (if p (Fin.last 32) then 1 else 0) else 0 := fun q => by
      unfold ind33
      by_cases hq : q = Fin.last 32
      · subst hq; simp only [if_true]
      · simp only [if_neg hq, ite_self]
    simp only [this, sum_ite_eq', mem_univ, if_true]
  have hfit : ∀ (k : ℤ) (p : Fin 33 → Prop) [DecidablePred p], 0 ≤ k → k ≤ 4 →
      FitsInt 8 (k * ∑ q, if p q then ind33 q else 0) := by
    intro k p _ hk0 hk4
    rw [hsum p]
    unfold FitsInt
    split_ifs <;> constructor <;> norm_num <;> omega
  have h := narrowG_exact (w := 8) (by norm_num) (by norm_num) τ ind33 r
    (fun i => by unfold FitsInt ind33; split_ifs <;> norm_num)
    (hfit 2 (fun q => τ.symm q < τ.symm r) (by norm_num) (by norm_num))
    (hfit 2 (fun q => q < r) (by norm_num) (by norm_num))
    (hfit 4 (fun q => q < r ∧ τ.symm q < τ.symm r) (by norm_num) (by norm_num))
  simp only [ind33_wrapW] at h
  have he : (fun i => oneOf33 i) = oneOf33 := rfl
  rw [he] at h
  rw [h]
  have hl : τ.symm (Fin.last 32) = Fin.last 32 := by rw [Equiv.symm_apply_eq, hτ]
  have : signedSum τ ind33 r = if r = Fin.last 32 then 0 else 1 := by
    unfold signedSum
    have : ∀ q, (if q = r then 0 else sgnLt q r * sgnLt (τ.symm q) (τ.symm r) * ind33 q)
        = if q = Fin.last 32 then (if r = Fin.last 32 then 0 else 1) else 0 := fun q => by
      unfold ind33
      by_cases hq : q = Fin.last 32
      · subst hq
        by_cases hr : r = Fin.last 32
        · simp only [hr, if_true]
        · have h1 : ¬ Fin.last 32 < r := not_lt.2 (Fin.le_last _)
          have h2 : ¬ Fin.last 32 < τ.symm r := not_lt.2 (Fin.le_last _)
          rw [if_neg (Ne.symm hr), if_pos rfl, if_pos rfl, if_neg hr]
          simp only [sgnLt, hl, if_neg h1, if_neg h2]
          norm_num
      · simp only [if_neg hq, mul_zero, ite_self]
    simp only [this, sum_ite_eq', mem_univ, if_true]
  rw [this]
  split_ifs <;> rfl

/-- C112 fails: on `int8` labels, 32 of them `0` and one `1`, the squared distance covariance of the
column with itself is negative and its squared distance correlation is `-1073 / 16` instead of 1, for
every function that sorts. The bound of `C112_short_integers_partial` is the best one:
`4 (33 - 1) = 2 ^ 7`. -/
theorem C112_labels_fail (argsort : (Fin 33 → BitVec 8) → Equiv.Perm (Fin 33))
    (hs : ∀ v : Fin 33 → BitVec 8, Monotone fun i => (v (argsort v i)).toInt) :
    let a := absDiff fun i => ((oneOf33 i).toInt : ℝ)
    dcovSqrSigned .avl argsort oneOf33 oneOf33 false = .ok (.fin (-(274688 / 1185921))) ∧
    (∃ s, statsSqrSigned .avl argsort oneOf33 oneOf33 false = .ok s ∧
      s.correlationXY = .fin (-(1073 / 16))) ∧
    Spec.dcovSqr a a = 4096 / 1185921 ∧ Spec.dcorSqr a a = 1 := by
  intro a
  have hσ := last_of_mono (argsort oneOf33) (by simpa only [oneOf33_toInt] using hs oneOf33)
  have hxσ : (fun i => oneOf33 (argsort oneOf33 i)) = oneOf33 := by
    funext i
    have : argsort oneOf33 i = Fin.last 32 ↔ i = Fin.last 32 := by
      constructor
      · intro h; exact (argsort oneOf33).injective (h.trans hσ.symm)
      · rintro rfl; exact hσ
    exact if_congr this rfl rfl
  have hX : (fun i => (oneOf33 i).toInt) = ind33 := funext oneOf33_toInt
  have hterms := avlTermsNarrow_eq (.signed 8) (signed_isMonoid (by norm_num) _) argsort oneOf33
    oneOf33 (by norm_num) _ _ _ rfl rfl rfl
  have hperm := permTerms_eq (argsort oneOf33) (argsort oneOf33) (argsort oneOf33) ind33 ind33
    (by rw [← hX]; exact hs _) (by rw [← hX]; exact hs _) (by
      have h1 : ∀ i, ind33 (argsort oneOf33 i) = ind33 i := fun i => by
        rw [← oneOf33_toInt, ← oneOf33_toInt]; exact congrArg BitVec.toInt (congrFun hxσ i)
      have h2 := hs oneOf33
      simp only [oneOf33_toInt, h1] at h2 ⊢
      exact h2)
  rw [hxσ] at hterms
  have hpt := congrFun hxσ
  generalize argsort oneOf33 = σ at *
  have hmul : ∀ i, (NarrowType.signed 8).mul (oneOf33 i) (oneOf33 i) = oneOf33 i := fun i => by
    unfold oneOf33
    split_ifs <;> rfl
  have hload : ∀ i, (NarrowType.signed 8).load (oneOf33 i)
      = if i = Fin.last 32 then 1 else 0 := fun i => by
    unfold oneOf33
    split_ifs <;> rfl
  have hwrap : (fun i => (NarrowType.signed 8).load (oneOf33 i)) = fun i => wrap (ind33 i) := by
    funext i
    rw [hload]
    unfold ind33
    split_ifs <;> rfl
  simp only [hpt, hmul] at hterms
  have hmean : ∑ r, ((NarrowType.signed 8).load (oneOf33 r)
        * narrowG (.signed 8) σ (fun _ => (NarrowType.signed 8).one) r
      + narrowG (.signed 8) σ (fun i => oneOf33 i) r
      - (NarrowType.signed 8).load (oneOf33 r) * narrowG (.signed 8) σ (fun i => oneOf33 i) r
      - (NarrowType.signed 8).load (oneOf33 r) * narrowG (.signed 8) σ (fun i => oneOf33 i) r)
      = (-192 : BitVec 64) := by
    have hterm : ∀ r, ((NarrowType.signed 8).load (oneOf33 r)
        * narrowG (.signed 8) σ (fun _ => (NarrowType.signed 8).one) r
      + narrowG (.signed 8) σ (fun i => oneOf33 i) r
      - (NarrowType.signed 8).load (oneOf33 r) * narrowG (.signed 8) σ (fun i => oneOf33 i) r
      - (NarrowType.signed 8).load (oneOf33 r) * narrowG (.signed 8) σ (fun i => oneOf33 i) r)
      = if r = Fin.last 32 then (-224 : BitVec 64) else 1 := by
      intro r
      have h := G_ind σ hσ r
      rw [show (fun i => oneOf33 i) = oneOf33 from rfl, h, hload]
      by_cases hr : r = Fin.last 32
      · subst hr
        rw [G_ones σ hσ]
        simp only [if_true]
        decide
      · simp only [if_neg hr]
        rw [zero_mul, zero_mul]
        rfl
    rw [sum_congr rfl fun r _ => hterm r]
    decide
  rw [hmean] at hterms
  have ht : avlTermsNarrow (.signed 8) argsort oneOf33 oneOf33 = .ok
      { (exactTerms (Equiv.refl _) ind33 ind33).map wrap with meanProd := -192 } := by
    rw [hterms, hwrap, permTerms_map, hperm]
    rfl
  have hfit : FitsInt64 (∑ i, ∑ j, |ind33 i - ind33 j|) := by
    unfold FitsInt64 ind33
    decide
  have hsum : ∑ i, ∑ j, |ind33 i - ind33 j| * |ind33 i - ind33 j| = 64 := by
    unfold ind33
    decide
  have hval := values_of_mean .avl (Equiv.refl _) ind33 ind33 (by norm_num) (-192) hfit hfit
  simp only [hsum] at hval
  have haind : a = absDiff fun i => (ind33 i : ℝ) := by
    show absDiff _ = _
    simp only [oneOf33_toInt]
  have hspec : Spec.dcovSqr a a = 4096 / 1185921 := by
    have hsym : Symm (absDiff fun i => (ind33 i : ℝ)) := absDiff_symm _
    rw [haind, Spec.dcovSqr_eq_terms _ _ hsym hsym (by norm_num)]
    have e1 : ∑ i, ∑ j, absDiff (fun i => (ind33 i : ℝ)) i j * absDiff (fun i => (ind33 i : ℝ)) i j
        = 64 := by
      have := congrArg (Int.cast : ℤ → ℝ) hsum
      push_cast at this
      exact this
    have e2 : ∑ i, ∑ j, absDiff (fun i => (ind33 i : ℝ)) i j = 64 := by
      have h : ∑ i, ∑ j, |ind33 i - ind33 j| = 64 := by unfold ind33; decide
      have := congrArg (Int.cast : ℤ → ℝ) h
      push_cast at this
      exact this
    have e3 : ∑ i, (∑ j, absDiff (fun i => (ind33 i : ℝ)) i j)
        * (∑ j, absDiff (fun i => (ind33 i : ℝ)) i j) = 1056 := by
      have h : ∑ i, (∑ j, |ind33 i - ind33 j|) * (∑ j, |ind33 i - ind33 j|) = 1056 := by
        unfold ind33; decide
      have := congrArg (Int.cast : ℤ → ℝ) h
      push_cast at this
      exact this
    rw [e1, e2, e3]
    norm_num
  have hc : Spec.dcovSqr a a + (((-192 : BitVec 64).toInt - 64 : ℤ) : ℝ) / ((33 : ℕ) : ℝ) ^ 2
      = -(274688 / 1185921) := by
    rw [hspec, show (-192 : BitVec 64).toInt = -192 from rfl]
    norm_num
  rw [← haind, hc, hspec] at hval
  have hstats : statsSqrSigned .avl argsort oneOf33 oneOf33 false = statsSqrOfInt64 .avl
      (.ok { (exactTerms (Equiv.refl _) ind33 ind33).map wrap with meanProd := -192 }) ind33 ind33 false := by
    unfold statsSqrSigned signedTerms
    simp only [ht, hX]
  refine ⟨?_, ⟨_, hstats.trans hval.2, ?_⟩, hspec, ?_⟩
  · unfold dcovSqrSigned signedTerms
    simp only [ht]
    exact hval.1
  · dsimp only
    congr 1
    unfold Spec.ratio
    rw [if_neg (by norm_num), abs_mul_self, Real.sqrt_mul_self (by norm_num)]
    norm_num
  · show Spec.ratio _ _ _ = 1
    rw [hspec]
    unfold Spec.ratio
    rw [if_neg (by norm_num), abs_mul_self, Real.sqrt_mul_self (by norm_num)]
    norm_num

/-! ### Booleans -/

/-- The booleans with the disjunction as sum. -/
@[reducible] private def orMonoid : AddCommMonoid Bool where
  add := or
  zero := false
  add_assoc := by decide
  add_comm := by decide
  zero_add := by decide
  add_zero := by decide
  nsmul := fun k b => if k = 0 then false else b
  nsmul_zero := fun _ => rfl
  nsmul_succ := fun k b => by cases k <;> cases b <;> rfl

private theorem bool_isMonoid (L : ℕ) (hL : L < 2 ^ 64) :
    @NarrowType.IsMonoid Bool .bool orMonoid L := by
  let _ := orMonoid
  have hc : ∀ l : List Bool, (l.map NarrowType.bool.load).sum = ((l.count true : ℕ) : BitVec 64) := by
    intro l
    induction l with
    | nil => rfl
    | cons b l ih =>
      rw [List.map_cons, List.sum_cons, ih, List.count_cons]
      cases b
      · show (0 : BitVec 64) + _ = _
        simp
      · show (1 : BitVec 64) + _ = _
        simp [add_comm]
  have hs : ∀ l : List Bool, l.sum = decide (l.count true ≠ 0) := by
    intro l
    induction l with
    | nil => rfl
    | cons b l ih =>
      rw [List.sum_cons, ih]
      show or b _ = _
      cases b <;> simp
  refine ⟨rfl, fun _ _ => rfl, fun l hl => ?_⟩
  rw [hc, hs]
  have h1 : l.count true < 2 ^ 64 := lt_of_le_of_lt (List.count_le_length.trans hl) hL
  show (((l.count true : ℕ) : BitVec 64) != 0) = _
  have h2 : (((l.count true : ℕ) : BitVec 64)).toNat = l.count true := by
    show (BitVec.ofNat 64 (l.count true)).toNat = _
    rw [BitVec.toNat_ofNat, Nat.mod_eq_of_lt h1]
  by_cases h : l.count true = 0
  · rw [h]; rfl
  · have : ((l.count true : ℕ) : BitVec 64) ≠ 0 := fun h0 => h (by rw [← h2, h0]; rfl)
    simpa [h] using this

/-- A boolean sample of four observations. -/
def boolX : Fin 4 → Bool := ![true, false, false, false]

/-- Its negation. -/
def boolY : Fin 4 → Bool := ![false, true, true, true]

private theorem bool_mean : ∀ σ τ : Equiv.Perm (Fin 4),
    (∀ i j, i ≤ j → boolX (σ i) ≤ boolX (σ j)) → (∀ i j, i ≤ j → boolY (σ (τ i)) ≤ boolY (σ (τ j))) →
    ∑ r, (NarrowType.bool.load (NarrowType.bool.mul (boolX (σ r)) (boolY (σ r)))
        * @narrowG _ _ .bool orMonoid τ (fun _ => NarrowType.bool.one) r
      + @narrowG _ _ .bool orMonoid τ (fun i => NarrowType.bool.mul (boolX (σ i)) (boolY (σ i))) r
      - NarrowType.bool.load (boolX (σ r)) * @narrowG _ _ .bool orMonoid τ (fun i => boolY (σ i)) r
      - NarrowType.bool.load (boolY (σ r)) * @narrowG _ _ .bool orMonoid τ (fun i => boolX (σ i)) r)
      = 2 := by
  decide +kernel

/-- C112 fails for booleans: for a sample with one `True` and three `False` and its negation, the squared
distance covariance is negative and the squared distance correlation is `-7/9` instead of 1, for every
function that sorts. -/
theorem C112_booleans_fail (argsort : (Fin 4 → Bool) → Equiv.Perm (Fin 4))
    (hs : ∀ v : Fin 4 → Bool, Monotone fun i => v (argsort v i)) :
    let a := absDiff fun i => if boolX i then 1 else 0
    let b := absDiff fun i => if boolY i then 1 else 0
    dcovSqrBool argsort boolX boolY false = .ok (.fin (-(7 / 64))) ∧
    (∃ s, statsSqrBool argsort boolX boolY false = .ok s ∧ s.correlationXY = .fin (-(7 / 9))) ∧
    Spec.dcovSqr a b = 9 / 64 ∧ Spec.dcorSqr a b = 1 := by
  intro a b
  obtain ⟨X, hX⟩ : ∃ X : Fin 4 → ℤ, X = ![1, 0, 0, 0] := ⟨_, rfl⟩
  obtain ⟨Y, hY⟩ : ∃ Y : Fin 4 → ℤ, Y = ![0, 1, 1, 1] := ⟨_, rfl⟩
  have hXb : (fun i => if boolX i then (1 : ℤ) else 0) = X := by
    rw [hX]; funext i; fin_cases i <;> rfl
  have hYb : (fun i => if boolY i then (1 : ℤ) else 0) = Y := by
    rw [hY]; funext i; fin_cases i <;> rfl
  have hlX : (fun i => NarrowType.bool.load (boolX i)) = fun i => wrap (X i) := by
    rw [hX]; funext i; fin_cases i <;> rfl
  have hlY : (fun i => NarrowType.bool.load (boolY i)) = fun i => wrap (Y i) := by
    rw [hY]; funext i; fin_cases i <;> rfl
  have hXle : ∀ i j, boolX i ≤ boolX j → X i ≤ X j := by rw [hX]; decide
  have hYle : ∀ i j, boolY i ≤ boolY j → Y i ≤ Y j := by rw [hY]; decide
  have hterms := @avlTermsNarrow_eq _ _ .bool orMonoid (bool_isMonoid (Nat.clog 2 4)
    (lt_of_le_of_lt (Nat.clog_le_of_le_pow (show 4 ≤ 2 ^ 2 by norm_num)) (by norm_num)))
    argsort boolX boolY (by norm_num) _ _ _ rfl rfl rfl
  have h1 := hs boolX
  have h2 := hs boolY
  have h3 := hs fun i => boolY (argsort boolX i)
  rw [bool_mean _ _ (fun i j h => h1 h) (fun i j h => h3 h), hlX, hlY, permTerms_map,
    permTerms_eq _ _ _ X Y (fun i j h => hXle _ _ (h1 h)) (fun i j h => hYle _ _ (h2 h))
      (fun i j h => hYle _ _ (h3 h))] at hterms
  have ht : avlTermsNarrow .bool argsort boolX boolY = .ok
      { (exactTerms (Equiv.refl _) X Y).map wrap with meanProd := 2 } := hterms
  have hval := values_of_mean .avl (Equiv.refl _) X Y (by norm_num) 2
    (by rw [hX]; unfold FitsInt64; decide) (by rw [hY]; unfold FitsInt64; decide)
  have ha : (absDiff fun i => (X i : ℝ)) = a := by
    show _ = absDiff _
    congr 1
    funext i
    rw [← hXb]
    push_cast
    rfl
  have hb : (absDiff fun i => (Y i : ℝ)) = b := by
    show _ = absDiff _
    congr 1
    funext i
    rw [← hYb]
    push_cast
    rfl
  have hXR : (fun i => (X i : ℝ)) = ![1, 0, 0, 0] := by
    rw [hX]; funext i; fin_cases i <;> simp
  have hYR : (fun i => (Y i : ℝ)) = ![0, 1, 1, 1] := by
    rw [hY]; funext i; fin_cases i <;> simp
  have hsa : Symm (absDiff (![1, 0, 0, 0] : Fin 4 → ℝ)) := absDiff_symm _
  have hsb : Symm (absDiff (![0, 1, 1, 1] : Fin 4 → ℝ)) := absDiff_symm _
  have hab : Spec.dcovSqr a b = 9 / 64 := by
    rw [← ha, ← hb, hXR, hYR, Spec.dcovSqr_eq_terms _ _ hsa hsb (by norm_num)]
    simp only [absDiff, Fin.sum_univ_four, Matrix.cons_val]
    norm_num
  have haa : Spec.dcovSqr a a = 9 / 64 := by
    rw [← ha, hXR, Spec.dcovSqr_eq_terms _ _ hsa hsa (by norm_num)]
    simp only [absDiff, Fin.sum_univ_four, Matrix.cons_val]
    norm_num
  have hbb : Spec.dcovSqr b b = 9 / 64 := by
    rw [← hb, hYR, Spec.dcovSqr_eq_terms _ _ hsb hsb (by norm_num)]
    simp only [absDiff, Fin.sum_univ_four, Matrix.cons_val]
    norm_num
  have hsum : ∑ i, ∑ j, |X i - X j| * |Y i - Y j| = 6 := by rw [hX, hY]; decide
  have hc : Spec.dcovSqr a b + (((2 : BitVec 64).toInt - 6 : ℤ) : ℝ) / ((4 : ℕ) : ℝ) ^ 2
      = -(7 / 64) := by
    rw [hab, show (2 : BitVec 64).toInt = 2 from rfl]
    norm_num
  simp only [hsum, ha, hb] at hval
  rw [hc, haa, hbb] at hval
  have hstats : statsSqrBool argsort boolX boolY false = statsSqrOfInt64 .avl
      (.ok { (exactTerms (Equiv.refl _) X Y).map wrap with meanProd := 2 }) X Y false := by
    unfold statsSqrBool
    rw [ht, hXb, hYb]
  refine ⟨?_, ⟨_, hstats.trans hval.2, ?_⟩, hab, ?_⟩
  · unfold dcovSqrBool
    rw [ht]
    exact hval.1
  · dsimp only
    congr 1
    unfold Spec.ratio
    rw [if_neg (by norm_num), abs_mul_self, Real.sqrt_mul_self (by norm_num)]
    norm_num
  · show Spec.ratio _ _ _ = 1
    rw [hab, haa, hbb]
    unfold Spec.ratio
    rw [if_neg (by norm_num), abs_mul_self, Real.sqrt_mul_self (by norm_num)]
    norm_num

/-! ### Mergesort -/

/-- C112, mergesort: with at least `2 ^ (w - 1)` observations (128 for `int8`) every call ends with an
`OverflowError`. -/
theorem C112_mergesort_error (argsort : (Fin n → BitVec w) → Equiv.Perm (Fin n))
    (x y : Fin n → BitVec w) (hn : 2 ^ (w - 1) ≤ n) (u : Bool) :
    dcovSqrSigned .mergesort argsort x y u = .error .overflowError ∧
    statsSqrSigned .mergesort argsort x y u = .error .overflowError := by
  have hge : IsGe (fun a b : BitVec w => decide (a.toInt ≥ b.toInt)) :=
    ⟨fun a b => by simpa using le_total b.toInt a.toInt, fun a b c h1 h2 => by
      simp only [decide_eq_true_eq] at *; exact le_trans h2 h1⟩
  have h : ∀ x y : Fin n → BitVec w, aijbijNarrow x y = .error .overflowError := by
    intro x y
    obtain ⟨π, u', e, _⟩ := computeWeightSums_eq hge y
      (fun i => (![1, y i, x i, x i * y i] : Fin 4 → BitVec w))
    unfold aijbijNarrow
    simp only
    rw [e, Except.ok_bind', if_pos (not_lt.2 hn)]
    rfl
  have ht : signedTerms .mergesort argsort x y = .error .overflowError := by
    unfold signedTerms mergesortTermsNarrow
    simp only
    rw [h]
    rfl
  unfold dcovSqrSigned statsSqrSigned dcovSqrOfInt64 statsSqrOfInt64
  rw [ht]
  exact ⟨rfl, rfl⟩

example : 2 ^ (8 - 1) ≤ 200 := by norm_num

/-- C112 fails for mergesort: on the `int8` sample `(0, 0, 0, 12)` the squared distance covariance of the
sample with itself is `-175 / 4` instead of `81 / 4`, and the squared distance correlation `-175 / 81`
instead of 1. -/
theorem C112_mergesort_fails (argsort : (Fin 4 → BitVec 8) → Equiv.Perm (Fin 4))
    (hs : ∀ v : Fin 4 → BitVec 8, Monotone fun i => (v (argsort v i)).toInt) :
    let x : Fin 4 → BitVec 8 := ![0, 0, 0, 12]
    let a := absDiff fun i => ((x i).toInt : ℝ)
    dcovSqrSigned .mergesort argsort x x false = .ok (.fin (-(175 / 4))) ∧
    (∃ s, statsSqrSigned .mergesort argsort x x false = .ok s ∧
      s.correlationXY = .fin (-(175 / 81))) ∧
    Spec.dcovSqr a a = 81 / 4 ∧ Spec.dcorSqr a a = 1 := by
  intro x a
  obtain ⟨X, hX⟩ : ∃ X : Fin 4 → ℤ, X = ![0, 0, 0, 12] := ⟨_, rfl⟩
  have hXx : (fun i => (x i).toInt) = X := by rw [hX]; funext i; fin_cases i <;> rfl
  have hσ : argsort x 3 = 3 := by
    have h1 := hs x (Fin.le_last ((argsort x).symm 3))
    simp only [Equiv.apply_symm_apply] at h1
    revert h1
    show (x 3).toInt ≤ (x (argsort x 3)).toInt → _
    generalize argsort x 3 = k
    revert k
    decide
  have hxσ : (fun i => x (argsort x i)) = x := by
    have h0 : ∀ i, i ≠ 3 → x i = 0 := by decide
    funext i
    by_cases hi : i = 3
    · rw [hi, hσ]
    · rw [h0 i hi, h0]
      intro h
      exact hi ((argsort x).injective (h.trans hσ.symm))
  have hge : IsGe (fun a b : BitVec 8 => decide (a.toInt ≥ b.toInt)) :=
    ⟨fun a b => by simpa using le_total b.toInt a.toInt, fun a b c h1 h2 => by
      simp only [decide_eq_true_eq] at *; exact le_trans h2 h1⟩
  have hagg : aijbijNarrow x x = .ok (-160) := by
    obtain ⟨π, u', e, _⟩ := computeWeightSums_eq hge x
      (fun i => (![1, x i, x i, x i * x i] : Fin 4 → BitVec 8))
    unfold aijbijNarrow
    simp only
    rw [e, Except.ok_bind']
    dsimp only
    decide +kernel
  have h1 : Monotone fun i => X (argsort x i) := by rw [← hXx]; exact hs x
  have hXσ : ∀ i, X (argsort x i) = X i := fun i => by
    have := congrArg BitVec.toInt (congrFun hxσ i)
    rw [← hXx]; exact this
  have h2 : Monotone fun i => X (argsort x (argsort x i)) := by
    simp only [hXσ] at h1 ⊢
    exact h1
  have ht : signedTerms .mergesort argsort x x = .ok
      { (exactTerms (argsort x) X X).map wrap with meanProd := -160 } := by
    have hspec := mergeSpecTerms_eq (argsort x) (argsort x) X X h1 h2
    have hex : exactTerms (argsort x) X X = mergeSpecTerms (fun a b : ℤ => decide (b ≤ a)) (argsort x)
        (argsort x) X X := by rw [hspec]; rfl
    have hX64 : ∀ i, (x i).signExtend 64 = wrap (X i) := fun i => by
      rw [signExtend_eq (by norm_num), ← hXx]
    have hrow : ∀ v : Fin 4 → BitVec 64, computeRowSums v
        = .ok (fun i => ∑ q, sgnLt q i * (v i - v q)) := fun v => computeRowSums_eq (by norm_num) v
    unfold signedTerms mergesortTermsNarrow
    simp only
    rw [hxσ, hagg, Except.ok_bind']
    simp only [hrow, Except.ok_bind', Except.pure_eq]
    rw [hex]
    congr 1
    have hb' : ∀ f : Fin 4 → BitVec 64, scatter (fun _ => (0 : BitVec 64)) (⇑(argsort x)) f
        = fun i => f ((argsort x).symm i) := fun f => by
      funext i
      rw [scatter_perm]
    have hx' : ∀ i, x (argsort x i) = x i := congrFun hxσ
    have hXs : ∀ i, X ((argsort x).symm i) = X i := fun i => by
      rw [← hXσ, Equiv.apply_symm_apply]
    simp only [hb', hx']
    unfold mergeSpecTerms CoreTerms.map
    simp only [hX64, map_sum, map_mul, map_sub, map_sgnLt, hXσ, hXs]
  have hval := values_of_mean .mergesort (argsort x) X X (by norm_num) (-160)
    (by rw [hX]; unfold FitsInt64; decide) (by rw [hX]; unfold FitsInt64; decide)
  have ha : (absDiff fun i => (X i : ℝ)) = a := by
    show _ = absDiff _
    rw [← hXx]
  have hXR : (fun i => (X i : ℝ)) = ![0, 0, 0, 12] := by
    rw [hX]; funext i; fin_cases i <;> simp
  have hsa : Symm (absDiff (![0, 0, 0, 12] : Fin 4 → ℝ)) := absDiff_symm _
  have haa : Spec.dcovSqr a a = 81 / 4 := by
    rw [← ha, hXR, Spec.dcovSqr_eq_terms _ _ hsa hsa (by norm_num)]
    simp only [absDiff, Fin.sum_univ_four, Matrix.cons_val]
    norm_num
  have hsum : ∑ i, ∑ j, |X i - X j| * |X i - X j| = 864 := by rw [hX]; decide
  have hc : Spec.dcovSqr a a + (((-160 : BitVec 64).toInt - 864 : ℤ) : ℝ) / ((4 : ℕ) : ℝ) ^ 2
      = -(175 / 4) := by
    rw [haa, show (-160 : BitVec 64).toInt = -160 from rfl]
    norm_num
  simp only [hsum, ha] at hval
  rw [hc, haa] at hval
  have hstats : statsSqrSigned .mergesort argsort x x false = statsSqrOfInt64 .mergesort
      (.ok { (exactTerms (argsort x) X X).map wrap with meanProd := -160 }) X X false := by
    unfold statsSqrSigned
    rw [ht, hXx]
  refine ⟨?_, ⟨_, hstats.trans hval.2, ?_⟩, haa, ?_⟩
  · unfold dcovSqrSigned
    rw [ht]
    exact hval.1
  · dsimp only
    congr 1
    unfold Spec.ratio
    rw [if_neg (by norm_num), abs_mul_self, Real.sqrt_mul_self (by norm_num)]
    norm_num
  · show Spec.ratio _ _ _ = 1
    rw [haa]
    unfold Spec.ratio
    rw [if_neg (by norm_num), abs_mul_self, Real.sqrt_mul_self (by norm_num)]
    norm_num

example : (∀ v : Fin 4 → Bool, Monotone fun i => v (Tuple.sort v i)) ∧
    ∀ v : Fin 4 → BitVec 8, Monotone fun i => (v (Tuple.sort (fun k => (v k).toInt) i)).toInt :=
  ⟨fun v => Tuple.monotone_sort v, fun v => Tuple.monotone_sort fun k => (v k).toInt⟩

end Dcor.Props

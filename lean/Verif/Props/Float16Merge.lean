/-
Property C135: the mergesort method on samples of dtype `float16`.
-/
import Verif.Proofs.Float16MergeInt
import Verif.Props.Float16

namespace Dcor.Props

open Dcor F64

variable {sqrt : F64 → F64} {sum sum16 : List F64 → F64} {dot dot16 : List (F64 × F64) → F64} {n : ℕ}

/-- C135: for more than 180 observations the mergesort method returns zero or NaN for the squared distance correlation of all samples
of dtype `float16`, and the distance variances are not finite. -/
theorem C135_correlation_fails (h : IsIeee64 sqrt sum dot) (hn : 180 < n) (bc : Bool) (ge : F64 → F64 → Bool)
    (argsort : (Fin n → F64) → Equiv.Perm (Fin n)) (x y : Fin n → F64) :
    ∃ r, Arith.mergesortStatsHalf (ieee16m sum16 dot16) (ieee64 sqrt sum dot) bc ge argsort x y = .ok r ∧
      (r.corr = nan ∨ r.corr = fin 0) ∧ ¬ r.varX.Finite ∧ ¬ r.varY.Finite := by
  obtain ⟨t, e, _⟩ := mergesortTermsSingle_ok (ieee16m sum16 dot16) (ieee64 sqrt sum dot) ge argsort x y (by omega)
  unfold Arith.mergesortStatsHalf
  rw [e]
  have vx := varTermHalf_not_finite (sum16 := sum16) hn (ieee64 sqrt sum dot) fun i => x (argsort x i)
  have vy := varTermHalf_not_finite (sum16 := sum16) hn (ieee64 sqrt sum dot) fun i => y (argsort x i)
  exact ⟨_, rfl, corr_of_not_finite h (fromTermsHalf_not_finite (sum16 := sum16) bc vx) (fromTermsHalf_not_finite (sum16 := sum16) bc vy),
    fromTermsHalf_not_finite (sum16 := sum16) bc vx, fromTermsHalf_not_finite (sum16 := sum16) bc vy⟩

/-- C135: if the product of an observation of the first sample and the number of observations is too large for `float16`, the squared
distance covariance is infinite or NaN. -/
theorem C135_covariance_fails (hd : F16.IsDot dot16) (hn : n ≤ 2 ^ 11) (bc : Bool) (ge : F64 → F64 → Bool)
    (argsort : (Fin n → F64) → Equiv.Perm (Fin n)) {x : Fin n → F64} (y : Fin n → F64) {i : Fin n} {a : ℚ} (hx : x i = fin a)
    (ha : 65520 ≤ n * |a|) :
    ∃ r, Arith.mergesortStatsHalf (ieee16m sum16 dot16) (ieee64 sqrt sum dot) bc ge argsort x y = .ok r ∧ ¬ r.cov.Finite := by
  obtain ⟨t, e, et⟩ := mergesortTermsSingle_ok (ieee16m sum16 dot16) (ieee64 sqrt sum dot) ge argsort x y i.pos
  have hi : x (argsort x ((argsort x).symm i)) = fin a := by rw [Equiv.apply_symm_apply, hx]
  have := aijbijHalf_not_finite hd ge (i := (argsort x).symm i) (by rw [hi]; exact F16.mul_large hn ha) et
  unfold Arith.mergesortStatsHalf
  rw [e]
  exact ⟨_, rfl, covFromTerms_not_finite bc this⟩

/-- C135: the same if the product of two observations that belong together is too large. -/
theorem C135_product_fails (hd : F16.IsDot dot16) (bc : Bool) (ge : F64 → F64 → Bool)
    (argsort : (Fin n → F64) → Equiv.Perm (Fin n)) {x y : Fin n → F64} {i : Fin n} {a b : ℚ} (hx : x i = fin a) (hy : y i = fin b)
    (hab : 65520 ≤ |a * b|) :
    ∃ r, Arith.mergesortStatsHalf (ieee16m sum16 dot16) (ieee64 sqrt sum dot) bc ge argsort x y = .ok r ∧ ¬ r.cov.Finite := by
  obtain ⟨t, e, et⟩ := mergesortTermsSingle_ok (ieee16m sum16 dot16) (ieee64 sqrt sum dot) ge argsort x y i.pos
  have hi : x (argsort x ((argsort x).symm i)) = fin a := by rw [Equiv.apply_symm_apply, hx]
  have hi' : y (argsort x ((argsort x).symm i)) = fin b := by rw [Equiv.apply_symm_apply, hy]
  have := aijbijHalf_not_finite' hd ge (i := (argsort x).symm i) (by rw [hi, hi']; exact F16.round_large hab) et
  unfold Arith.mergesortStatsHalf
  rw [e]
  exact ⟨_, rfl, covFromTerms_not_finite bc this⟩

/-- C135: for 65520 observations or more the squared distance covariance of all samples is infinite or NaN. -/
theorem C135_many_fail (hd : F16.IsDot dot16) (hn : 65520 ≤ n) (bc : Bool) (ge : F64 → F64 → Bool)
    (argsort : (Fin n → F64) → Equiv.Perm (Fin n)) (x y : Fin n → F64) :
    ∃ r, Arith.mergesortStatsHalf (ieee16m sum16 dot16) (ieee64 sqrt sum dot) bc ge argsort x y = .ok r ∧ ¬ r.cov.Finite := by
  obtain ⟨t, e, et⟩ := mergesortTermsSingle_ok (ieee16m sum16 dot16) (ieee64 sqrt sum dot) ge argsort x y (by omega)
  have := aijbijHalf_not_finite hd ge (i := ⟨0, by omega⟩) (F16.mul_many hn _) et
  unfold Arith.mergesortStatsHalf
  rw [e]
  exact ⟨_, rfl, covFromTerms_not_finite bc this⟩

/-- C135, the part that holds: for small integers the terms are exact, in any order of summation; the rows are in the order of the
sorted `x`. Missing: other samples, see `C135_correlation_fails` and `C135_covariance_fails`. -/
theorem C135_integer_terms_partial (h16 : F16.IsSum sum16) (hd : F16.IsDot dot16) (h : IsIeee64 sqrt sum dot) (hn : 0 < n)
    {ge : F64 → F64 → Bool} (hge : ∀ a b : ℚ, ge (fin a) (fin b) = decide (b ≤ a))
    {argsort : (Fin n → F64) → Equiv.Perm (Fin n)}
    (hsort : ∀ v : Fin n → ℚ, Monotone fun i => v (argsort (fun i => fin (v i)) i))
    {x y : Fin n → ℤ} {X Y : ℤ} (hX : 1 ≤ X) (hY : 1 ≤ Y) (hx : ∀ i, |x i| ≤ X) (hy : ∀ i, |y i| ≤ Y)
    (hM : 16 * ((n : ℤ) * (n * (X * Y))) ≤ 2 ^ 11) :
    Arith.mergesortTermsSingle (ieee16m sum16 dot16) (ieee64 sqrt sum dot) ge argsort (fun i => fin (x i)) (fun i => fin (y i))
      = .ok { meanProd := fin (∑ i, ∑ j, |(x i : ℚ) - x j| * |(y i : ℚ) - y j|)
              aAxis := fun i => fin (∑ j, |(x (argsort (fun i => fin (x i)) i) : ℚ) - x j|)
              aTotal := fin (∑ i, ∑ j, |(x i : ℚ) - x j|)
              bAxis := fun i => fin (∑ j, |(y (argsort (fun i => fin (x i)) i) : ℚ) - y j|)
              bTotal := fin (∑ i, ∑ j, |(y i : ℚ) - y j|) } := by
  obtain ⟨m1, -, m3⟩ := sorted_int (fun v => argsort fun i => fin (v i)) hsort x y
  rw [mergesortTermsHalf_int h16 hd h.sum hge argsort hX hY hx hy hn hM, mergeSpecTerms_eq _ _ _ _ m1 m3]
  push_cast
  rfl

/-! ### Cases that meet the hypotheses -/

example := C135_correlation_fails (sum16 := F16.sumSeq) (dot16 := F16.dotSeq) ieee64_seq (n := 200) (by norm_num) false
  (fun a b => !F64.lt a b) (fun _ => 1) (fun i => fin (i : ℕ)) (fun i => fin (2 * (i : ℕ)))
example := C135_covariance_fails (sqrt := sqrtSeq) (sum := sumSeq) (sum16 := F16.sumSeq) (dot := dotSeq) F16.dotSeq_isDot (n := 100)
  (by norm_num) false (fun a b => !F64.lt a b) (fun _ => 1) (x := fun i => fin (600 + (i : ℕ))) (fun i => fin (i : ℕ)) (i := 70)
  (a := 670) (by norm_num [show ((70 : Fin 100) : ℕ) = 70 from rfl]) (by norm_num)
example := C135_product_fails (sqrt := sqrtSeq) (sum := sumSeq) (sum16 := F16.sumSeq) (dot := dotSeq) F16.dotSeq_isDot (n := 4) false
  (fun a b => !F64.lt a b) (fun _ => 1) (x := ![fin 0, fin 2, fin 100, fin 300]) (y := ![fin 0, fin 1, fin 5, fin 250]) (i := 3) rfl rfl
  (by norm_num)
example := C135_many_fail (sqrt := sqrtSeq) (sum := sumSeq) (sum16 := F16.sumSeq) (dot := dotSeq) F16.dotSeq_isDot (n := 100000)
  (by norm_num) false (fun a b => !F64.lt a b) (fun _ => 1) (fun i => fin ((i : ℕ) % 7 : ℕ)) (fun i => fin ((i : ℕ) % 5 : ℕ))

example := C135_integer_terms_partial F16.sumSeq_isSum F16.dotSeq_isDot ieee64_seq (n := 4) (by norm_num)
  (ge := fun a b => !F64.lt a b) (fun a b => by simp [F64.lt, ← not_lt]) (argsort := sortHalf) (fun v => Tuple.monotone_sort v)
  (x := ![0, 1, -1, 1]) (y := ![8, -3, 5, 0]) (X := 1) (Y := 8) (by norm_num) (by norm_num) (by decide) (by decide) (by norm_num)

end Dcor.Props
